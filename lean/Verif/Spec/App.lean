import Verif.Py.Text
/-!
What the command line is meant to do, stated apart from the model.
-/
namespace Verif.App

/-- The numeric values of the log levels, as in the documentation of Python's `logging`. -/
inductive Level : List Char → Nat → Prop
  | notset : Level "NOTSET".toList 0
  | debug : Level "DEBUG".toList 10
  | info : Level "INFO".toList 20
  | warn : Level "WARN".toList 30
  | warning : Level "WARNING".toList 30
  | error : Level "ERROR".toList 40
  | critical : Level "CRITICAL".toList 50

end Verif.App
