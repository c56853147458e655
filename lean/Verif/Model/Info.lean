/-!
`__license__` and `__doc__` of the package: written into dill/__info__.py when it is installed (/repo/version.py:59-87, called from /repo/setup.py:21-26) and
read back by the import; taken from the files themselves when dill is used from its sources (/repo/dill/__init__.py:10-23).

Simplifications: a text has no carriage return (`open(...).read()`, version.py:16, has replaced them) and no character that cannot be encoded; of the
escape sequences, those with digits or names (\\x41, \\101, \\u0041, \\N{...}) are not modelled (`none`); what follows a literal that ends early is not parsed.
-/
namespace Verif.Info

abbrev Text := List Char

/-- `__license__` of the sources, dill/__init__.py:20-21 -/
def sourceLicense (license : Text) : Text := '\n' :: license

/-- `__doc__` of the sources, dill/__init__.py:22 -/
def sourceDoc (readme : Text) : Text := readme

def quotes : Text := ['\'', '\'', '\'']

/-- what write_info_file writes for the license after `__license__ = '''`, version.py:86 -/
def writtenLicense (license : Text) : Text := '\n' :: license ++ quotes ++ ['\n']

/-- what write_info_file writes for the description after its first three quotes, version.py:83 -/
def writtenDoc (readme : Text) : Text := readme ++ quotes ++ ['\n', '\n']

/-- a backslash and this character in a Python string literal (the import of dill/__info__.py, dill/__init__.py:11) -/
def escape (c : Char) : Option Text :=
  if c = '\n' then some []
  else if c = '\\' ∨ c = '\'' ∨ c = '"' then some [c]
  else if c = 'n' then some ['\n']
  else if c = 't' then some ['\t']
  else if c = 'r' then some ['\r']
  else if c = 'a' then some ['\x07']
  else if c = 'b' then some ['\x08']
  else if c = 'v' then some ['\x0b']
  else if c = 'f' then some ['\x0c']
  else if c = 'x' ∨ c = 'u' ∨ c = 'U' ∨ c = 'N' ∨ c.isDigit then none
  else some ['\\', c]

/-- the value of a string literal after its three opening quotes, and what follows it; `none`: it is not closed.  (The import of dill/__info__.py,
dill/__init__.py:11.) -/
def literal : Text → Option (Text × Text)
  | [] => none
  | c :: cs =>
    if c = '\'' ∧ cs.take 2 = ['\'', '\''] then some ([], cs.drop 2)
    else if c = '\\' then
      match cs with
      | [] => none
      | d :: ds => match escape d, literal ds with
        | some e, some (v, r) => some (e ++ v, r)
        | _, _ => none
    else match literal cs with
      | some (v, r) => some (c :: v, r)
      | none => none

/-- `__license__` of the installed package: the literal has to end where the file says it does -/
def installedLicense (license : Text) : Option Text :=
  match literal (writtenLicense license) with
  | some (v, ['\n']) => some v
  | _ => none

/-- `__doc__` of the installed package -/
def installedDoc (readme : Text) : Option Text :=
  match literal (writtenDoc readme) with
  | some (v, ['\n', '\n']) => some v
  | _ => none

end Verif.Info
