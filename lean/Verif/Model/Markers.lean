import Verif.Model.Core
/-! The marker objects of the `dataclasses` module, as objects of `Core`. -/
namespace Verif.Core

/-- The objects of the classes that are registered: `_HAS_DEFAULT_FACTORY_CLASS`, `_MISSING_TYPE`, `_KW_ONLY_TYPE` (one object each), and
`_FIELD_BASE`, whose objects have a name; /repo/dill/_dill.py:2138, 2145, 2152, 2159. -/
inductive Marker where
  | hasDefaultFactory | missing | kwOnly | fieldBase (name : String)
  deriving DecidableEq, Repr

/-- What the functions for the markers of `dataclasses` write: the opcode GLOBAL with the module and a name, whatever the marker is and
whether or not it has been written before, and nothing is memoised; /repo/dill/_dill.py:2137-2163.  In `Core` this is a `push` of the
name in place.  (The opcode is that of protocol 0, two lines of text, at every protocol; the others of `Core` are two memoised strings
and STACK_GLOBAL at protocol 4.) -/
def saveMarker : Marker → Val
  | .hasDefaultFactory => .atom (.glob "dataclasses" "_HAS_DEFAULT_FACTORY")
  | .missing => .atom (.glob "dataclasses" "MISSING")
  | .kwOnly => .atom (.glob "dataclasses" "KW_ONLY")
  | .fieldBase name => .atom (.glob "dataclasses" name)

end Verif.Core
