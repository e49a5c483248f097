
## Testing the theorems against wrong programs

`tools/mutants.py` lists edits of model definitions that resemble realistic bugs, each with the property it breaks.
`tools/mutate.py` applies them one by one to a scratch copy, builds it and records in `seeded/LOG.jsonl` which claimed theorems no
longer hold. Mutants that survived led to stronger theorems (field `tightened`).
