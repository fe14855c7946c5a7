import Verif.Spec.Checkpoint
import Verif.Lemmas.Frames

/-! # Lemmas about checkpoints -/

namespace Mlp.Lemmas
open Mlp.Util Mlp.Spec Mlp.Frame Mlp.Ckpt

section
variable {S X α σ : Type}

/-- Every result is the right one. -/
def Sound (code : Code S X α) (st : Store (S × X) α) : Prop := ∀ k v, st k = .good v → code.train k.1 k.2 = .ok v

theorem write_same {κ : Type} (st : Store κ α) (k : κ) (e : Entry α) : write st k e k = e := by
  unfold write; rw [if_pos rfl]

theorem write_ne {κ : Type} (st : Store κ α) {k k' : κ} (e : Entry α) (h : k' ≠ k) : write st k e k' = st k' := by
  unfold write; rw [if_neg h]

theorem sound_write_good {code : Code S X α} {st : Store (S × X) α} (h : Sound code st) {k : S × X} {v : α}
    (hv : code.train k.1 k.2 = .ok v) : Sound code (write st k (.good v)) := by
  intro k' v' h'
  by_cases e : k' = k
  · subst e; rw [write_same] at h'; cases h'; exact hv
  · rw [write_ne _ _ e] at h'; exact h k' v' h'

theorem sound_write_corrupt {code : Code S X α} {st : Store (S × X) α} (h : Sound code st) (k : S × X) :
    Sound code (write st k .corrupt) := by
  intro k' v' h'
  by_cases e : k' = k
  · subst e; rw [write_same] at h'; cases h'
  · rw [write_ne _ _ e] at h'; exact h k' v' h'

theorem cachedCall_good {code : Code S X α} {x : X} {ref : Nat} {fault : Fault} {w : World S X α} {v : α}
    (h : w.store (w.heap ref, x) = .good v) : cachedCall code x ref fault w = loadCall fault v w := by
  unfold cachedCall; rw [h]

theorem cachedCall_bad {code : Code S X α} {x : X} {ref : Nat} {fault : Fault} {w : World S X α}
    (h : ¬ HasResult w.store (w.heap ref, x)) : cachedCall code x ref fault w = computeAndStore code x ref fault w := by
  unfold cachedCall
  split
  · rename_i v hv; exact absurd ⟨v, hv⟩ h
  · rfl

theorem loadCall_world (fault : Fault) (v : α) (w : World S X α) : (loadCall fault v w).2 = w := by
  unfold loadCall; split <;> rfl

/-- What a call that computes does to the world: it may touch the object and write the key of the object. -/
theorem compute_world (code : Code S X α) (x : X) (ref : Nat) (fault : Fault) (w : World S X α) :
    (computeAndStore code x ref fault w).2 = w ∨ (computeAndStore code x ref fault w).2 = w.touch code x ref ∨
    (∃ v, code.train (w.heap ref) x = .ok v ∧ (computeAndStore code x ref fault w).2 =
      { w.touch code x ref with store := write w.store (w.heap ref, x) (.good v) }) ∨
    (computeAndStore code x ref fault w).1 = .crash ∧
      (computeAndStore code x ref fault w).2 = { w.touch code x ref with store := write w.store (w.heap ref, x) .corrupt } := by
  unfold computeAndStore
  cases fault with
  | before => exact Or.inl rfl
  | during => exact Or.inr (Or.inl rfl)
  | _ =>
    cases h : code.train (w.heap ref) x with
    | error e => exact Or.inr (Or.inl rfl)
    | ok v =>
      unfold persist
      first
      | exact Or.inr (Or.inr (Or.inl ⟨v, rfl, rfl⟩))
      | exact Or.inr (Or.inr (Or.inr ⟨rfl, rfl⟩))

theorem cachedCall_sound {code : Code S X α} {x : X} {ref : Nat} {fault : Fault} {w : World S X α}
    (h : Sound code w.store) : Sound code (cachedCall code x ref fault w).2.store := by
  by_cases hr : HasResult w.store (w.heap ref, x)
  · obtain ⟨v, hv⟩ := hr
    rw [cachedCall_good hv, loadCall_world]; exact h
  · rw [cachedCall_bad hr]
    rcases compute_world code x ref fault w with e | e | ⟨v, hv, e⟩ | ⟨-, e⟩ <;> rw [e]
    · exact h
    · exact h
    · exact sound_write_good h hv
    · exact sound_write_corrupt h _

/-- Usable results stay. -/
theorem cachedCall_mono {code : Code S X α} {x : X} {ref : Nat} {fault : Fault} {w : World S X α} {k : S × X} {v : α}
    (h : w.store k = .good v) : (cachedCall code x ref fault w).2.store k = .good v := by
  by_cases hr : HasResult w.store (w.heap ref, x)
  · obtain ⟨v, hv⟩ := hr
    rw [cachedCall_good hv, loadCall_world]; exact h
  · have hne : k ≠ (w.heap ref, x) := by rintro rfl; exact hr ⟨v, h⟩
    rw [cachedCall_bad hr]
    rcases compute_world code x ref fault w with e | e | ⟨v, hv, e⟩ | ⟨-, e⟩ <;> rw [e]
    · exact h
    · exact h
    · simp only []; rw [write_ne _ _ hne]; exact h
    · simp only []; rw [write_ne _ _ hne]; exact h

/-- New results are under the key of the call. -/
theorem cachedCall_new {code : Code S X α} {x : X} {ref : Nat} {fault : Fault} {w : World S X α} {k : S × X}
    (h : HasResult (cachedCall code x ref fault w).2.store k) :
    HasResult w.store k ∨ k = (w.heap ref, x) ∧ ¬ HasResult w.store (w.heap ref, x) := by
  by_cases hr : HasResult w.store (w.heap ref, x)
  · obtain ⟨v, hv⟩ := hr
    rw [cachedCall_good hv, loadCall_world] at h
    exact Or.inl h
  · by_cases hne : k = (w.heap ref, x)
    · exact Or.inr ⟨hne, hr⟩
    · left
      rw [cachedCall_bad hr] at h
      unfold HasResult at h ⊢
      rcases compute_world code x ref fault w with e | e | ⟨v, hv, e⟩ | ⟨-, e⟩ <;> rw [e] at h
      · exact h
      · exact h
      · simp only [write_ne _ _ hne] at h; exact h
      · simp only [write_ne _ _ hne] at h; exact h

/-- A call changes only its object, and that only by training it. -/
theorem cachedCall_heap (code : Code S X α) (x : X) (ref : Nat) (fault : Fault) (w : World S X α) :
    (∀ r, r ≠ ref → (cachedCall code x ref fault w).2.heap r = w.heap r) ∧
    ((cachedCall code x ref fault w).2.heap ref = w.heap ref ∧ (cachedCall code x ref fault w).2.trained = w.trained ∨
      (cachedCall code x ref fault w).2.heap ref = code.after (w.heap ref) x ∧
      (cachedCall code x ref fault w).2.trained = w.trained ++ [(w.heap ref, x)] ∧
      ¬ HasResult w.store (w.heap ref, x)) := by
  by_cases hr : HasResult w.store (w.heap ref, x)
  · obtain ⟨v, hv⟩ := hr
    rw [cachedCall_good hv, loadCall_world]
    exact ⟨fun _ _ => rfl, Or.inl ⟨rfl, rfl⟩⟩
  · rw [cachedCall_bad hr]
    have ht : (∀ r, r ≠ ref → (w.touch code x ref).heap r = w.heap r) ∧
        (w.touch code x ref).heap ref = code.after (w.heap ref) x := by
      unfold World.touch
      exact ⟨fun r h => if_neg h, if_pos rfl⟩
    rcases compute_world code x ref fault w with e | e | ⟨v, hv, e⟩ | ⟨-, e⟩ <;> rw [e]
    · exact ⟨fun _ _ => rfl, Or.inl ⟨rfl, rfl⟩⟩
    · exact ⟨ht.1, Or.inr ⟨ht.2, rfl, hr⟩⟩
    · exact ⟨ht.1, Or.inr ⟨ht.2, rfl, hr⟩⟩
    · exact ⟨ht.1, Or.inr ⟨ht.2, rfl, hr⟩⟩

/-- A call without fault returns what training would. -/
theorem cachedCall_result {code : Code S X α} {x : X} {ref : Nat} {w : World S X α} (h : Sound code w.store) :
    (cachedCall code x ref .none w).1 = toOutcome (code.train (w.heap ref) x) := by
  by_cases hr : HasResult w.store (w.heap ref, x)
  · obtain ⟨v, hv⟩ := hr
    rw [cachedCall_good hv, h _ _ hv]; rfl
  · rw [cachedCall_bad hr]
    unfold computeAndStore
    simp only []
    cases hv : code.train (w.heap ref) x <;> rfl

theorem cachedCall_crash {code : Code S X α} {x : X} {ref : Nat} {w : World S X α} :
    (cachedCall code x ref .none w).1 ≠ .crash := by
  by_cases hr : HasResult w.store (w.heap ref, x)
  · obtain ⟨v, hv⟩ := hr
    rw [cachedCall_good hv]; simp [loadCall]
  · rw [cachedCall_bad hr]
    unfold computeAndStore
    simp only []
    cases hv : code.train (w.heap ref) x <;> simp [persist]

/-- A call that returns a result leaves the result behind, and there was no fault. -/
theorem cachedCall_done {code : Code S X α} {x : X} {ref : Nat} {fault : Fault} {w : World S X α} {v : α}
    (h : (cachedCall code x ref fault w).1 = .ok v) :
    (cachedCall code x ref fault w).2.store (w.heap ref, x) = .good v ∧ fault = .none ∧
    ((cachedCall code x ref fault w).2.trained = w.trained → HasResult w.store (w.heap ref, x)) := by
  by_cases hr : HasResult w.store (w.heap ref, x)
  · have hr' := hr
    obtain ⟨v', hv⟩ := hr
    rw [cachedCall_good hv] at h ⊢
    rw [loadCall_world]
    unfold loadCall at h
    cases fault with
    | none => cases h; exact ⟨hv, rfl, fun _ => hr'⟩
    | _ => cases h
  · rw [cachedCall_bad hr] at h ⊢
    unfold computeAndStore at h ⊢
    cases fault with
    | before => cases h
    | during => cases h
    | none =>
      simp only [] at h ⊢
      cases hv : code.train (w.heap ref) x with
      | error e => rw [hv] at h; cases h
      | ok v' =>
        rw [hv] at h
        simp only [persist] at h ⊢
        cases h
        refine ⟨write_same _ _ _, trivial, fun ht => ?_⟩
        simp [World.touch] at ht
    | midWrite =>
      simp only [] at h
      cases hv : code.train (w.heap ref) x with
      | error e => rw [hv] at h; cases h
      | ok v' => rw [hv] at h; cases h
    | afterWrite =>
      simp only [] at h
      cases hv : code.train (w.heap ref) x with
      | error e => rw [hv] at h; cases h
      | ok v' => rw [hv] at h; cases h

/-! ### The loop -/

variable {code : Code S X α} {x : X} {body : σ → Str → α → Py σ}

/-- What every call preserves, the loop preserves. -/
theorem loop_preserves {call : Nat → Fault → World S X α → Outcome α × World S X α} {P : World S X α → Prop}
    (hc : ∀ ref fault w, P w → P (call ref fault w).2) (methods : List (Str × Nat)) (faults : List Fault) (s : σ)
    (w : World S X α) (h : P w) : P (methodsLoop call body methods faults s w).2 := by
  induction methods generalizing faults s w with
  | nil => exact h
  | cons m ms ih =>
    have h1 := hc m.2 (faults.headD .none) w h
    unfold methodsLoop
    split
    · rename_i w' e; rw [e] at h1; exact h1
    · rename_i e' w' e; rw [e] at h1; exact h1
    · rename_i v w' e
      rw [e] at h1
      split
      · exact h1
      · exact ih _ _ _ h1

/-- The loop without faults computes what the loop without checkpoints and without side effects computes. -/
theorem loop_result (methods : List (Str × Nat)) (s : σ) (w : World S X α) (tr : Nat → Py α)
    (call : Nat → Fault → World S X α → Outcome α × World S X α) (P : World S X α → Prop)
    (hcall : ∀ ref w, P w → (call ref .none w).1 = toOutcome (code.train (w.heap ref) x) ∧ P (call ref .none w).2 ∧
      (∀ r, r ≠ ref → (call ref .none w).2.heap r = w.heap r) ∧
      ((call ref .none w).2.heap ref = w.heap ref ∨ (call ref .none w).2.heap ref = code.after (w.heap ref) x))
    (hP : P w) (htr : ∀ m ∈ methods, code.train (w.heap m.2) x = tr m.2)
    (hd : (methods.map fun m => m.2).Nodup ∨ ∀ s, code.train (code.after s x) x = code.train s x) :
    (methodsLoop call body methods [] s w).1 =
      toOutcome (methods.foldlM (fun s m => do let v ← tr m.2; body s m.1 v) s) := by
  induction methods generalizing s w with
  | nil => rfl
  | cons m ms ih =>
    obtain ⟨h1, h2, h3, h4⟩ := hcall m.2 w hP
    rw [htr m (by simp)] at h1
    rw [List.foldlM_cons]
    unfold methodsLoop
    simp only [List.headD_nil, List.tail_nil]
    generalize call m.2 .none w = r at h1 h2 h3 h4
    obtain ⟨o, w'⟩ := r
    simp only at h1 h2 h3 h4
    cases htm : tr m.2 with
    | error e =>
      rw [htm] at h1
      subst h1
      simp only [toOutcome, error_bind]
    | ok v =>
      rw [htm] at h1
      subst h1
      simp only [toOutcome, ok_bind]
      cases hb : body s m.1 v with
      | error e => simp only [error_bind]
      | ok s' =>
        rw [ok_bind]
        refine ih s' w' h2 ?_ ?_
        · intro m' hm'
          by_cases e : m'.2 = m.2
          · rcases hd with hd | hd
            · rw [List.map_cons, List.nodup_cons] at hd
              exact absurd (List.mem_map.2 ⟨m', hm', e⟩) hd.1
            · rw [← htr m' (by simp [hm']), e]
              rcases h4 with h4 | h4 <;> rw [h4]
              exact hd _
          · rw [h3 _ e]; exact htr m' (by simp [hm'])
        · rcases hd with hd | hd
          · left
            rw [List.map_cons, List.nodup_cons] at hd
            exact hd.2
          · exact Or.inr hd

theorem loop_sound {methods : List (Str × Nat)} {faults : List Fault} {s : σ} {w : World S X α} (h : Sound code w.store) :
    Sound code (methodsLoop (cachedCall code x) body methods faults s w).2.store :=
  loop_preserves (P := fun w => Sound code w.store) (fun _ _ _ h => cachedCall_sound h) _ _ _ _ h

theorem loop_mono {methods : List (Str × Nat)} {faults : List Fault} {s : σ} {w : World S X α} {k : S × X} {v : α}
    (h : w.store k = .good v) : (methodsLoop (cachedCall code x) body methods faults s w).2.store k = .good v :=
  loop_preserves (P := fun w => w.store k = .good v) (fun _ _ _ h => cachedCall_mono h) _ _ _ _ h

theorem loop_heap_other {methods : List (Str × Nat)} {faults : List Fault} {s : σ} {w : World S X α} {r : Nat}
    (hr : r ∉ methods.map fun m => m.2) : (methodsLoop (cachedCall code x) body methods faults s w).2.heap r = w.heap r := by
  induction methods generalizing faults s w with
  | nil => rfl
  | cons m ms ih =>
    simp only [List.map_cons, List.mem_cons, not_or] at hr
    have h1 := (cachedCall_heap code x m.2 (faults.headD .none) w).1 r hr.1
    unfold methodsLoop
    split
    · rename_i w' e; rw [e] at h1; exact h1
    · rename_i e' w' e; rw [e] at h1; exact h1
    · rename_i v w' e
      rw [e] at h1
      split
      · exact h1
      · rw [ih hr.2]; exact h1

/-- What is trained: only what there is no result for, and nothing twice; all of it if the loop returns. -/
theorem loop_trained {methods : List (Str × Nat)} (hd : (methods.map fun m => m.2).Nodup) (faults : List Fault) (s : σ)
    (w : World S X α) :
    ∃ new, (methodsLoop (cachedCall code x) body methods faults s w).2.trained = w.trained ++ new ∧ new.Nodup ∧
      (∀ k ∈ new, (∃ m ∈ methods, k = (w.heap m.2, x)) ∧ ¬ HasResult w.store k) ∧
      (∀ s', (methodsLoop (cachedCall code x) body methods faults s w).1 = .ok s' →
        (∀ m ∈ methods, ¬ HasResult w.store (w.heap m.2, x) → (w.heap m.2, x) ∈ new) ∧
        ∀ m ∈ methods, HasResult (methodsLoop (cachedCall code x) body methods faults s w).2.store (w.heap m.2, x)) := by
  induction methods generalizing faults s w with
  | nil => exact ⟨[], by simp [methodsLoop], by simp, by simp, by simp⟩
  | cons m ms ih =>
    rw [List.map_cons, List.nodup_cons] at hd
    obtain ⟨h1, h2⟩ := cachedCall_heap code x m.2 (faults.headD .none) w
    have h3 := fun v => cachedCall_done (code := code) (x := x) (ref := m.2) (fault := faults.headD .none) (w := w) (v := v)
    have h4 := fun k v => cachedCall_mono (code := code) (x := x) (ref := m.2) (fault := faults.headD .none) (w := w)
      (k := k) (v := v)
    have h5 := fun k => cachedCall_new (code := code) (x := x) (ref := m.2) (fault := faults.headD .none) (w := w) (k := k)
    unfold methodsLoop
    generalize cachedCall code x m.2 (faults.headD .none) w = r at h1 h2 h3 h4 h5
    obtain ⟨o, w'⟩ := r
    simp only at h1 h2 h3 h4 h5
    have hstop : ∃ new, w'.trained = w.trained ++ new ∧ new.Nodup ∧
        ∀ k ∈ new, (∃ m' ∈ m :: ms, k = (w.heap m'.2, x)) ∧ ¬ HasResult w.store k := by
      rcases h2 with ⟨-, h2⟩ | ⟨-, h2, hn⟩
      · exact ⟨[], by simp [h2], by simp, by simp⟩
      · refine ⟨[(w.heap m.2, x)], h2, by simp, ?_⟩
        intro k hk
        rw [List.mem_singleton] at hk
        subst hk
        exact ⟨⟨m, by simp, rfl⟩, hn⟩
    cases o with
    | crash =>
      obtain ⟨new, a, b, c⟩ := hstop
      exact ⟨new, a, b, c, by simp⟩
    | exc e =>
      obtain ⟨new, a, b, c⟩ := hstop
      exact ⟨new, a, b, c, by simp⟩
    | ok v =>
      simp only
      cases hb : body s m.1 v with
      | error e =>
        obtain ⟨new, a, b, c⟩ := hstop
        exact ⟨new, a, b, c, by simp⟩
      | ok s' =>
        simp only
        obtain ⟨hv, -, hload⟩ := h3 v rfl
        obtain ⟨new, a, b, c, d⟩ := ih hd.2 faults.tail s' w'
        have hheap : ∀ m' ∈ ms, w'.heap m'.2 = w.heap m'.2 := by
          intro m' hm'
          exact h1 _ fun e => hd.1 (List.mem_map.2 ⟨m', hm', e⟩)
        have hmono : ∀ k, HasResult w.store k → HasResult w'.store k := fun k ⟨v, hv⟩ => ⟨v, h4 k v hv⟩
        have hfin : HasResult (methodsLoop (cachedCall code x) body ms faults.tail s' w').2.store (w.heap m.2, x) :=
          ⟨v, loop_mono hv⟩
        have hnew : ∀ k ∈ new, (∃ m' ∈ m :: ms, k = (w.heap m'.2, x)) ∧ ¬ HasResult w.store k := by
          intro k hk
          obtain ⟨⟨m', hm', e⟩, hn⟩ := c k hk
          exact ⟨⟨m', by simp [hm'], by rw [e, hheap m' hm']⟩, fun h => hn (hmono k h)⟩
        have hall : ∀ (extra : List (S × X)), (∀ m' ∈ ms, ¬ HasResult w.store (w.heap m'.2, x) →
            HasResult w'.store (w.heap m'.2, x) → (w.heap m'.2, x) ∈ extra) →
            (HasResult w.store (w.heap m.2, x) ∨ (w.heap m.2, x) ∈ extra) →
            ∀ s'', (methodsLoop (cachedCall code x) body ms faults.tail s' w').1 = .ok s'' →
            (∀ m' ∈ m :: ms, ¬ HasResult w.store (w.heap m'.2, x) → (w.heap m'.2, x) ∈ extra ++ new) ∧
            ∀ m' ∈ m :: ms, HasResult (methodsLoop (cachedCall code x) body ms faults.tail s' w').2.store
              (w.heap m'.2, x) := by
          intro extra hex hm s'' hs
          obtain ⟨d1, d2⟩ := d s'' hs
          constructor
          · intro m' hm' hn
            rcases List.mem_cons.1 hm' with rfl | hm'
            · rcases hm with hm | hm
              · exact absurd hm hn
              · exact List.mem_append_left _ hm
            · by_cases hr : HasResult w'.store (w.heap m'.2, x)
              · exact List.mem_append_left _ (hex m' hm' hn hr)
              · refine List.mem_append_right _ ?_
                have := d1 m' hm' (by rw [hheap m' hm']; exact hr)
                rwa [hheap m' hm'] at this
          · intro m' hm'
            rcases List.mem_cons.1 hm' with rfl | hm'
            · exact hfin
            · have := d2 m' hm'
              rwa [hheap m' hm'] at this
        rcases h2 with ⟨-, h2⟩ | ⟨-, h2, hn⟩
        · have hr := hload h2
          refine ⟨new, by rw [a, h2], b, hnew, ?_⟩
          have := hall [] (by
            intro m' hm' hn hr'
            rcases h5 _ hr' with h | ⟨-, h⟩
            · exact absurd h hn
            · exact absurd hr h) (Or.inl hr)
          simpa using this
        · refine ⟨(w.heap m.2, x) :: new, by rw [a, h2]; simp, ?_, ?_, ?_⟩
          · rw [List.nodup_cons]
            refine ⟨fun hk => ?_, b⟩
            exact (c _ hk).2 ⟨v, hv⟩
          · intro k hk
            rcases List.mem_cons.1 hk with rfl | hk
            · exact ⟨⟨m, by simp, rfl⟩, hn⟩
            · exact hnew k hk
          · have := hall [(w.heap m.2, x)] (by
              intro m' hm' hn' hr'
              rcases h5 _ hr' with h | ⟨h, -⟩
              · exact absurd h hn'
              · rw [h]; simp) (Or.inr (by simp))
            simpa using this

/-- The state of the objects afterwards: an object for which there was a result is as before. -/
theorem loop_heap {methods : List (Str × Nat)} (hd : (methods.map fun m => m.2).Nodup) {faults : List Fault} {s : σ}
    {w : World S X α} {m : Str × Nat} (hm : m ∈ methods) :
    ((methodsLoop (cachedCall code x) body methods faults s w).2.heap m.2 = w.heap m.2 ∨
      (methodsLoop (cachedCall code x) body methods faults s w).2.heap m.2 = code.after (w.heap m.2) x) ∧
    (HasResult w.store (w.heap m.2, x) →
      (methodsLoop (cachedCall code x) body methods faults s w).2.heap m.2 = w.heap m.2) := by
  induction methods generalizing faults s w with
  | nil => simp at hm
  | cons a ms ih =>
    rw [List.map_cons, List.nodup_cons] at hd
    obtain ⟨h1, h2⟩ := cachedCall_heap code x a.2 (faults.headD .none) w
    have h4 := fun k v => cachedCall_mono (code := code) (x := x) (ref := a.2) (fault := faults.headD .none) (w := w)
      (k := k) (v := v)
    unfold methodsLoop
    generalize cachedCall code x a.2 (faults.headD .none) w = r at h1 h2 h4
    obtain ⟨o, w'⟩ := r
    simp only at h1 h2 h4
    have hthis : (w'.heap m.2 = w.heap m.2 ∨ w'.heap m.2 = code.after (w.heap m.2) x) ∧
        (HasResult w.store (w.heap m.2, x) → w'.heap m.2 = w.heap m.2) := by
      by_cases e : m.2 = a.2
      · rw [e]
        rcases h2 with ⟨h2, -⟩ | ⟨h2, -, hn⟩
        · exact ⟨Or.inl h2, fun _ => h2⟩
        · exact ⟨Or.inr h2, fun h => absurd h hn⟩
      · rw [h1 _ e]
        exact ⟨Or.inl rfl, fun _ => rfl⟩
    cases o with
    | crash => exact hthis
    | exc e => exact hthis
    | ok v =>
      simp only
      cases hb : body s a.1 v with
      | error e => exact hthis
      | ok s' =>
        simp only
        rcases List.mem_cons.1 hm with rfl | hm
        · rw [loop_heap_other hd.1]
          exact hthis
        · have hh : w'.heap m.2 = w.heap m.2 := h1 _ fun e => hd.1 (List.mem_map.2 ⟨m, hm, e⟩)
          have := ih hd.2 (faults := faults.tail) (s := s') (w := w') hm
          rw [hh] at this
          exact ⟨this.1, fun ⟨v, hv⟩ => this.2 ⟨v, h4 _ v hv⟩⟩

/-- The loop dies only at the first fault, and all methods before have left their results. -/
theorem loop_crash {methods : List (Str × Nat)} (hd : (methods.map fun m => m.2).Nodup) {faults : List Fault} {s : σ}
    {w : World S X α} (h : (methodsLoop (cachedCall code x) body methods faults s w).1 = .crash) :
    ∃ before f rest, faults = List.replicate before Fault.none ++ f :: rest ∧ f ≠ .none ∧ before < methods.length ∧
      (∀ m ∈ methods.take before,
        HasResult (methodsLoop (cachedCall code x) body methods faults s w).2.store (w.heap m.2, x)) ∧
      (f = .afterWrite → ∀ m ∈ methods.take (before + 1),
        HasResult (methodsLoop (cachedCall code x) body methods faults s w).2.store (w.heap m.2, x)) := by
  induction methods generalizing faults s w with
  | nil => cases h
  | cons a ms ih =>
    rw [List.map_cons, List.nodup_cons] at hd
    have h0 := cachedCall_crash (code := code) (x := x) (ref := a.2) (w := w)
    have h1 := (cachedCall_heap code x a.2 (faults.headD .none) w).1
    have h3 := fun v => cachedCall_done (code := code) (x := x) (ref := a.2) (fault := faults.headD .none) (w := w) (v := v)
    have h6 : faults.headD .none = .afterWrite → (cachedCall code x a.2 (faults.headD .none) w).1 = .crash →
        HasResult (cachedCall code x a.2 (faults.headD .none) w).2.store (w.heap a.2, x) := by
      intro e hc
      rw [e] at hc ⊢
      by_cases hr : HasResult w.store (w.heap a.2, x)
      · obtain ⟨v, hv⟩ := hr
        exact ⟨v, cachedCall_mono hv⟩
      · rw [cachedCall_bad hr] at hc ⊢
        unfold computeAndStore at hc ⊢
        simp only [] at hc ⊢
        cases hv : code.train (w.heap a.2) x with
        | error e => rw [hv] at hc; cases hc
        | ok v => exact ⟨v, write_same _ _ _⟩
    unfold methodsLoop at h ⊢
    have hf : faults.headD .none ≠ .none → ∃ f rest, faults = f :: rest ∧ faults.headD .none = f := by
      cases faults with
      | nil => intro h; exact absurd rfl h
      | cons f rest => intro _; exact ⟨f, rest, rfl, rfl⟩
    have hnone : (cachedCall code x a.2 (faults.headD .none) w).1 = .crash → faults.headD .none ≠ .none := by
      intro hc e
      rw [e] at hc
      exact h0 hc
    clear h0
    generalize cachedCall code x a.2 (faults.headD .none) w = r at *
    obtain ⟨o, w'⟩ := r
    simp only at h1 h3 h6 hnone
    cases o with
    | crash =>
      obtain ⟨f, rest, e1, e2⟩ := hf (hnone rfl)
      refine ⟨0, f, rest, by simpa using e1, by rw [← e2]; exact hnone rfl, by simp, by simp, ?_⟩
      intro e m hm
      simp only [Nat.zero_add, List.take_succ_cons, List.take_zero, List.mem_singleton] at hm
      subst hm
      exact h6 (by rw [e2, e]) rfl
    | exc e => cases h
    | ok v =>
      obtain ⟨hv, hfn, -⟩ := h3 v rfl
      simp only at h ⊢
      cases hb : body s a.1 v with
      | error e => rw [hb] at h; cases h
      | ok s' =>
        rw [hb] at h
        simp only at h ⊢
        obtain ⟨b, f, rest, e1, e2, e3, e4, e5⟩ := ih hd.2 h
        have hfl : faults = Fault.none :: faults.tail := by
          cases faults with
          | nil => simp only [List.tail_nil] at e1; simp at e1
          | cons g gs => simp only [List.headD_cons] at hfn; rw [hfn]; rfl
        have hh : ∀ m ∈ ms, w'.heap m.2 = w.heap m.2 := fun m hm => h1 _ fun e => hd.1 (List.mem_map.2 ⟨m, hm, e⟩)
        refine ⟨b + 1, f, rest, ?_, e2, by simpa using e3, ?_, ?_⟩
        · rw [hfl, List.replicate_succ, List.cons_append, ← e1]
        · intro m hm
          rw [List.take_succ_cons] at hm
          rcases List.mem_cons.1 hm with rfl | hm
          · exact ⟨v, loop_mono hv⟩
          · have := e4 m hm
            rwa [hh m (List.mem_of_mem_take hm)] at this
        · intro ef m hm
          rw [List.take_succ_cons] at hm
          rcases List.mem_cons.1 hm with rfl | hm
          · exact ⟨v, loop_mono hv⟩
          · have := e5 ef m hm
            rwa [hh m (List.mem_of_mem_take hm)] at this

/-- If all results are there, nothing happens to the world. -/
theorem loop_idle {methods : List (Str × Nat)} {faults : List Fault} {s : σ} {w : World S X α}
    (h : ∀ m ∈ methods, HasResult w.store (w.heap m.2, x)) :
    (methodsLoop (cachedCall code x) body methods faults s w).2 = w := by
  induction methods generalizing faults s with
  | nil => rfl
  | cons a ms ih =>
    obtain ⟨v, hv⟩ := h a (by simp)
    unfold methodsLoop
    rw [cachedCall_good hv]
    unfold loadCall
    cases faults.headD .none with
    | none =>
      simp only
      cases hb : body s a.1 v with
      | error e => rfl
      | ok s' => exact ih fun m hm => h m (by simp [hm])
    | _ => rfl

/-! ### The functions -/

theorem runWith_world {n τ : Type} (checks : Py n) (loop : n → Outcome σ × World S X α) (result : n → σ → τ)
    (w : World S X α) : (∃ e, checks = .error e ∧ runWith checks loop result w = (.exc e, w)) ∨
      ∃ k, checks = .ok k ∧ (runWith checks loop result w).2 = (loop k).2 ∧
        ((runWith checks loop result w).1 = .crash ↔ (loop k).1 = .crash) ∧
        ∀ t, (runWith checks loop result w).1 = .ok t ↔ ∃ s, (loop k).1 = .ok s ∧ t = result k s := by
  cases checks with
  | error e => exact Or.inl ⟨e, rfl, rfl⟩
  | ok k =>
    refine Or.inr ⟨k, rfl, ?_⟩
    unfold runWith
    simp only
    generalize loop k = r
    obtain ⟨o, w'⟩ := r
    cases o with
    | crash => simp
    | exc e => simp
    | ok s => simp [eq_comm]

theorem runWith_result {n τ : Type} (checks : Py n) (loop : n → Outcome σ × World S X α) (result : n → σ → τ)
    (w : World S X α) (pureLoop : n → Py σ) (h : ∀ k, (loop k).1 = toOutcome (pureLoop k)) :
    (runWith checks loop result w).1 = toOutcome (do let k ← checks; let s ← pureLoop k; return result k s) := by
  cases checks with
  | error e => rfl
  | ok k =>
    have := h k
    unfold runWith
    rw [ok_bind]
    simp only
    generalize loop k = r at this
    obtain ⟨o, w'⟩ := r
    simp only at this
    subst this
    cases pureLoop k <;> rfl

end
end Mlp.Lemmas
