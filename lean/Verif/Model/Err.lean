/-!
# Exceptions of the model

Python exceptions are values of `Except PyErr`.  One constructor per raise site
class the properties distinguish; `undefinedBehaviour` stands for an
out-of-bounds access in the C++ extension.
-/

namespace Verif

/-- What a call can do instead of returning. -/
inductive PyErr where
  /-- `std::range_error` of ext/_hmmc.cpp:74 and :91 (a `ValueError` in Python) -/
  | underflow
  /-- `std::invalid_argument{"shape mismatch"}` (a `ValueError` in Python) -/
  | shapeMismatch
  /-- any other `ValueError`, with the message's first words -/
  | valueError (msg : String)
  /-- `IndexError` -/
  | indexError
  /-- `KeyError` -/
  | keyError (key : String)
  /-- `AttributeError` -/
  | attributeError (name : String)
  /-- `TypeError` -/
  | typeError
  /-- `numpy.linalg.LinAlgError` -/
  | linAlgError
  /-- sklearn's `NotFittedError` -/
  | notFitted
  /-- `NotImplementedError` -/
  | notImplemented
  /-- `AssertionError` -/
  | assertionError
  /-- C++ undefined behaviour (out-of-bounds lattice access) -/
  | undefinedBehaviour
deriving Repr, DecidableEq

end Verif
