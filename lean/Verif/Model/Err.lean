/-! The Python exceptions the model distinguishes. -/

/-- Exception classes raised by the modelled code (`metatab/exc.py` lines 9-43 and Python built-ins). -/
inductive Err
  | valueError | attributeError | typeError | keyError | indexError | assertionError | recursionError
  | includeError      -- metatab/exc.py:25
  | parserError       -- metatab/exc.py:19
  | declarationError  -- metatab/exc.py:31
  | generateError     -- metatab/exc.py:35
  | conversionError   -- metatab/exc.py:39
  | metatabError      -- metatab/exc.py:9
  | formatError       -- metatab/exc.py:42
  | unboundLocal      -- UnboundLocalError
  | osError           -- OSError, such as FileNotFoundError
  /-- The model stops: the code goes on in a way the model does not describe. Never raised by the code. -/
  | unmodelled
deriving DecidableEq, Repr

deriving instance DecidableEq for Except
