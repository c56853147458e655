import Verif.Model.Core
/-! Bound methods as objects of `Core`. -/
namespace Verif.Core

/-- What `save_instancemethod0` writes for a bound method with the function `func` and the object `self`: a call of
`types.MethodType(func, self)`, memoised as the method; /repo/dill/_dill.py:1527-1532.  `mt` is the reference to MethodType.
`obj.__self__` is the class for a classmethod.  Builtin methods (`[].append`) are another type and are not meant. -/
def boundMethod (mt func self : Val) : SObj := .node (.red mt [func, self]) [] [] none

end Verif.Core
