
## 6. Trying the theorems against wrong programs

A theorem that still proves when the model is edited into a program for which its English claim is false says too little. So the model
was edited, one realistic bug at a time, in a scratch copy: every definition of every model file got several edits (off by one, wrong
comparison, wrong rounding mode, missing check, swapped arguments, wrong axis, dropped branch, forgotten normalisation, stale state, ...).
The modules that depend on the edited definition were compiled again, also past errors, and every theorem was classified: its own proof
or one of its lemmas fails, or it still holds. `seeded/LOG.jsonl` has one line for each attempt: the definition, the edit, the claim it breaks, the
theorems that failed and those that were tightened because of it. Edits that turned out to leave the observable
behaviour unchanged are logged as such.
