import Verif.Props.Source
import Verif.Props.Check
/-! C67 down to the bytes: the literal in the text dumpsource writes is a literal of exactly the pickle. -/
set_option linter.unusedSimpArgs false
namespace Verif.Source
open Check (reprBytes readBytes)

/-- the text before the literal -/
def before : Str := "def __this_is_a_big_dummy_enclosing_function__():\n    import dill\n    __this_is_a_stub_variable__ = dill.loads(".toList

/-- the text after it -/
def behind (alias : Str) : Str := ")\n    return __this_is_a_stub_variable__\n".toList ++ (if alias = [] then [] else alias ++ " = ".toList) ++
  "__this_is_a_big_dummy_enclosing_function__(); del __this_is_a_big_dummy_enclosing_function__\n".toList

/-- C67 for every pickle, whatever bytes it holds: the text has no line but the documented ones, the argument of `dill.loads` in it is
a bytes literal, and its value is the pickle.  (`source.py:575`: `pik = repr(dumps(object))`.) -/
theorem C67_same_pickle (pickle : List UInt8) (alias : Str) (new inst : Bool) (cls modr : Str) (ha : '\n' ∉ alias) :
    ∃ lit, dumpsource (reprBytes pickle) alias new true inst cls modr = before ++ lit ++ behind alias ∧
      readBytes (lit ++ behind alias) = some (pickle, behind alias) ∧ ∀ c ∈ lit, 32 ≤ c.toNat ∧ c.toNat < 127 := by
  refine ⟨reprBytes pickle, ?_, ?_, Check.reprBytes_printable pickle⟩
  · have hp : '\n' ∉ reprBytes pickle := by
      intro h
      have := (Check.reprBytes_printable pickle _ h).1
      revert this
      decide
    rw [C67_enclosed _ _ _ _ _ _ hp ha]
    unfold before behind
    simp only [List.append_assoc]
  · apply Check.readBytes_repr
    unfold behind
    intro h
    cases h

/-- … and without the enclosing function -/
theorem C67_same_pickle_plain (pickle : List UInt8) (alias : Str) (new inst : Bool) (cls modr : Str) (h : new = false ∨ inst = false) :
    ∃ lit, dumpsource (reprBytes pickle) alias new false inst cls modr =
        "import dill\n".toList ++ (if alias = [] then [] else alias ++ " = ".toList) ++ "dill.loads(".toList ++ lit ++ ")\n".toList ∧
      readBytes (lit ++ ")\n".toList) = some (pickle, ")\n".toList) :=
  ⟨reprBytes pickle, C67_plain _ _ _ _ _ _ h, Check.readBytes_repr _ _ (by decide)⟩

/-- a pickle with both quotes, a backslash, a newline and bytes that are not ASCII -/
example : ∃ lit, dumpsource (reprBytes [0x80, 4, 0x27, 0x22, 0x5c, 0x0a, 0x2e]) "x".toList false true false [] [] =
    before ++ lit ++ behind "x".toList ∧ readBytes (lit ++ behind "x".toList) = some ([0x80, 4, 0x27, 0x22, 0x5c, 0x0a, 0x2e], behind "x".toList) :=
  let ⟨l, h1, h2, _⟩ := C67_same_pickle [0x80, 4, 0x27, 0x22, 0x5c, 0x0a, 0x2e] "x".toList false false [] [] (by decide)
  ⟨l, h1, h2⟩

end Verif.Source
