"""Writes the four tables of the standard library's _compat_pickle.py as a Lean module."""
import importlib.util
P='/app/python311/lib/python3.11/_compat_pickle.py'
sp=importlib.util.spec_from_file_location('cp',P)
c=importlib.util.module_from_spec(sp); sp.loader.exec_module(c)
def q(s): return '"%s"'%s
def pairs(d): return ',\n   '.join('((%s, %s), (%s, %s))'%tuple(map(q,k+v)) for k,v in d.items())
def singles(d): return ',\n   '.join('(%s, %s)'%(q(k),q(v)) for k,v in d.items())
out='''/-
Generated by tools/gen_oldnames.py from the standard library's `_compat_pickle.py` (CPython 3.11, on Linux), as it stands
after its loops and updates: how protocols 0 to 2 rename modules and globals.
-/
namespace Verif.OldNames

/-- `_compat_pickle.IMPORT_MAPPING` (`_compat_pickle.py:8-51` and `:172-187`): Python 2 module to Python 3 module. -/
def importMapping : List (String × String) :=
  [%s]

/-- `_compat_pickle.NAME_MAPPING` (`_compat_pickle.py:57-92`, `:151-152`, `:161-162`, `:197-202`). -/
def nameMapping : List ((String × String) × (String × String)) :=
  [%s]

/-- `_compat_pickle.REVERSE_IMPORT_MAPPING` (`_compat_pickle.py:165`, `:189-195`): what is written for a Python 3 module. -/
def reverseImportMapping : List (String × String) :=
  [%s]

/-- `_compat_pickle.REVERSE_NAME_MAPPING` (`_compat_pickle.py:167`, `:204-251`). -/
def reverseNameMapping : List ((String × String) × (String × String)) :=
  [%s]

end Verif.OldNames
'''%(singles(c.IMPORT_MAPPING),pairs(c.NAME_MAPPING),singles(c.REVERSE_IMPORT_MAPPING),pairs(c.REVERSE_NAME_MAPPING))
open('/verif/lean/Verif/Model/OldTables.lean','w').write(out)
