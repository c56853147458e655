import Verif.Model.OldNames

/-!
# C105: references by name at every protocol

A class, function or namespace that is pickled by reference is written as a module and a name; loading must look up that
module and that name again.  Protocols 0 to 2 rename both for the sake of Python 2.  The lists below are the specification:
exactly the references that do not come back.
-/

set_option linter.unusedSimpArgs false

namespace Verif.OldNames

/-- The modules none of whose names survives protocols 0 to 2. -/
def lostModules : List String :=
  ["BaseHTTPServer", "CGIHTTPServer", "ConfigParser", "Cookie", "Dialog", "DocXMLRPCServer", "FileDialog",
   "HTMLParser", "Queue", "ScrolledText", "SimpleDialog", "SimpleHTTPServer", "SimpleXMLRPCServer", "SocketServer",
   "StringIO", "Tix", "Tkconstants", "Tkdnd", "Tkinter", "UserDict", "UserList", "UserString", "__builtin__",
   "_abcoll", "_bz2", "_dbm", "_elementtree", "_functools", "_gdbm", "_pickle", "_winreg", "anydbm", "cPickle",
   "cStringIO", "commands", "cookielib", "copy_reg", "dbhash", "dumbdbm", "dummy_thread", "gdbm", "htmlentitydefs",
   "httplib", "markupbase", "repr", "robotparser", "test.test_support", "thread", "tkColorChooser", "tkCommonDialog",
   "tkFileDialog", "tkFont", "tkMessageBox", "tkSimpleDialog", "ttk", "urllib2", "urlparse", "whichdb", "xmlrpclib",
   "dill.dill"]

/-- The names lost in other modules at protocols 0 to 2. -/
def lostNames : List Ref :=
  [("_multiprocessing", "Connection"), ("_socket", "fromfd"), ("_socket", "socket"), ("builtins", "BrokenPipeError"),
   ("builtins", "ChildProcessError"), ("builtins", "ConnectionAbortedError"), ("builtins", "ConnectionError"),
   ("builtins", "ConnectionRefusedError"), ("builtins", "ConnectionResetError"), ("builtins", "FileExistsError"),
   ("builtins", "FileNotFoundError"), ("builtins", "InterruptedError"), ("builtins", "IsADirectoryError"),
   ("builtins", "ModuleNotFoundError"), ("builtins", "NotADirectoryError"), ("builtins", "PermissionError"),
   ("builtins", "ProcessLookupError"), ("builtins", "TimeoutError"), ("builtins", "basestring"),
   ("builtins", "intern"), ("builtins", "long"), ("builtins", "reduce"), ("builtins", "unichr"),
   ("builtins", "unicode"), ("builtins", "xrange"), ("exceptions", "ArithmeticError"),
   ("exceptions", "AssertionError"), ("exceptions", "AttributeError"), ("exceptions", "BaseException"),
   ("exceptions", "BufferError"), ("exceptions", "BytesWarning"), ("exceptions", "DeprecationWarning"),
   ("exceptions", "EOFError"), ("exceptions", "EnvironmentError"), ("exceptions", "Exception"),
   ("exceptions", "FloatingPointError"), ("exceptions", "FutureWarning"), ("exceptions", "GeneratorExit"),
   ("exceptions", "IOError"), ("exceptions", "ImportError"), ("exceptions", "ImportWarning"),
   ("exceptions", "IndentationError"), ("exceptions", "IndexError"), ("exceptions", "KeyError"),
   ("exceptions", "KeyboardInterrupt"), ("exceptions", "LookupError"), ("exceptions", "MemoryError"),
   ("exceptions", "NameError"), ("exceptions", "NotImplementedError"), ("exceptions", "OSError"),
   ("exceptions", "OverflowError"), ("exceptions", "PendingDeprecationWarning"), ("exceptions", "ReferenceError"),
   ("exceptions", "RuntimeError"), ("exceptions", "RuntimeWarning"), ("exceptions", "StandardError"),
   ("exceptions", "StopIteration"), ("exceptions", "SyntaxError"), ("exceptions", "SyntaxWarning"),
   ("exceptions", "SystemError"), ("exceptions", "SystemExit"), ("exceptions", "TabError"),
   ("exceptions", "TypeError"), ("exceptions", "UnboundLocalError"), ("exceptions", "UnicodeDecodeError"),
   ("exceptions", "UnicodeEncodeError"), ("exceptions", "UnicodeError"), ("exceptions", "UnicodeTranslateError"),
   ("exceptions", "UnicodeWarning"), ("exceptions", "UserWarning"), ("exceptions", "ValueError"),
   ("exceptions", "Warning"), ("exceptions", "ZeroDivisionError"), ("itertools", "ifilter"),
   ("itertools", "ifilterfalse"), ("itertools", "imap"), ("itertools", "izip"), ("itertools", "izip_longest"),
   ("multiprocessing", "AuthenticationError"), ("multiprocessing", "BufferTooShort"),
   ("multiprocessing", "ProcessError"), ("multiprocessing", "TimeoutError"), ("multiprocessing.forking", "Popen"),
   ("multiprocessing.process", "Process"), ("socket", "_socketobject"), ("urllib", "ContentTooShortError"),
   ("urllib", "getproxies"), ("urllib", "pathname2url"), ("urllib", "quote"), ("urllib", "quote_plus"),
   ("urllib", "unquote"), ("urllib", "unquote_plus"), ("urllib", "url2pathname"), ("urllib", "urlcleanup"),
   ("urllib", "urlencode"), ("urllib", "urlopen"), ("urllib", "urlretrieve"), ("urllib.request", "HTTPError"),
   ("urllib.request", "URLError"), ("builtins", "__main__"), ("builtins", "NoneType")]

/-- The modules whose namespaces are lost at protocols 0 to 2: the names that modules had in Python 2. -/
def python2Modules : List String :=
  ["BaseHTTPServer", "CGIHTTPServer", "ConfigParser", "Cookie", "Dialog", "DocXMLRPCServer", "FileDialog",
   "HTMLParser", "Queue", "ScrolledText", "SimpleDialog", "SimpleHTTPServer", "SimpleXMLRPCServer", "SocketServer",
   "StringIO", "Tix", "Tkconstants", "Tkdnd", "Tkinter", "UserDict", "UserList", "UserString", "__builtin__",
   "_abcoll", "_elementtree", "_winreg", "anydbm", "cPickle", "cStringIO", "commands", "cookielib", "copy_reg",
   "dbhash", "dbm", "dumbdbm", "dummy_thread", "gdbm", "htmlentitydefs", "httplib", "markupbase", "repr",
   "robotparser", "test.test_support", "thread", "tkColorChooser", "tkCommonDialog", "tkFileDialog", "tkFont",
   "tkMessageBox", "tkSimpleDialog", "ttk", "urllib2", "urlparse", "whichdb", "xmlrpclib"]

/-- The text is in ASCII. -/
def IsAscii (s : String) : Prop := ∀ c ∈ s.toList, c.toNat < 128

/-- The object found as `m.n` is dumped at this protocol, and what loading looks up is `m.n` again. -/
def ComesBack (proto : Nat) (m n : String) : Prop :=
  ∃ w, saveGlobal proto true (m, n) = some w ∧ findClass proto true w = .named (m, n)

/-! ## Lookups -/

theorem mem_of_lookup {α β : Type} [BEq α] [LawfulBEq α] {k : α} {v : β} : ∀ {l : List (α × β)},
    l.lookup k = some v → (k, v) ∈ l
  | [], h => by cases h
  | (a, b) :: l, h => by
      by_cases hk : (k == a) = true
      · have hk := eq_of_beq hk; subst hk
        simp [List.lookup] at h
        simp [h]
      · have hb : (k == a) = false := by simpa using hk
        simp only [List.lookup, hb] at h
        exact List.mem_cons_of_mem _ (mem_of_lookup h)

/-- Whether `r` comes back at protocols 0 to 2, leaving out ASCII. -/
def back (r : Ref) : Bool := decide (findClass 2 true (toOld r) = .named r)

/-- Whether the specification says so. -/
def spec (r : Ref) : Bool := decide (r.1 ∉ lostModules ∧ r ∉ lostNames)

theorem chk_rn : ∀ e ∈ reverseNameMapping, back e.1 = spec e.1 := by decide +kernel
theorem chk_ln : ∀ e ∈ lostNames, back e = spec e := by decide +kernel
theorem chk_n : ∀ e ∈ nameMapping, back e.1 = spec e.1 := by decide +kernel
theorem chk_ri_n : ∀ e ∈ reverseImportMapping, ∀ f ∈ nameMapping, f.1.1 = e.2 →
    back (e.1, f.1.2) = spec (e.1, f.1.2) := by decide +kernel
theorem chk_ri : ∀ e ∈ reverseImportMapping,
    (importMapping.lookup e.2 = some e.1 ↔ e.1 ∉ lostModules) ∧ (importMapping.lookup e.2 = none → e.2 ≠ e.1 ∧ e.1 ∈ lostModules) ∧
    e.2 ≠ "dill.dill" ∧ e.1 ≠ "dill.dill" ∧ (e.2 = "__builtin__" → e.1 = "builtins") := by decide +kernel
theorem chk_i : ∀ e ∈ importMapping, reverseImportMapping.lookup e.1 = none → e.1 ∈ lostModules ∧ e.2 ≠ e.1 := by
  decide +kernel
theorem chk_lm : ∀ m ∈ lostModules, reverseImportMapping.lookup m = none →
    m = "dill.dill" ∨ m = "__builtin__" ∨ importMapping.lookup m ≠ none := by decide +kernel

/-- The names of the renaming tables are ASCII. -/
theorem chk_ascii_rn : ∀ e ∈ reverseNameMapping,
    ascii e.1.1 = true ∧ ascii e.1.2 = true ∧ ascii e.2.1 = true ∧ ascii e.2.2 = true := by decide +kernel
theorem chk_ascii_ri : ∀ e ∈ reverseImportMapping, ascii e.1 = true ∧ ascii e.2 = true := by decide +kernel

theorem ascii_iff (s : String) : ascii s = true ↔ IsAscii s := by
  simp [ascii, IsAscii, List.all_eq_true]

/-- Renaming does not decide about ASCII. -/
theorem ascii_toOld (r : Ref) : (ascii (toOld r).1 && ascii (toOld r).2) = (ascii r.1 && ascii r.2) := by
  simp only [toOld]
  split
  · rename_i r' h
    obtain ⟨h1, h2, h3, h4⟩ := chk_ascii_rn _ (mem_of_lookup h)
    simp_all
  · split
    · rename_i m h
      obtain ⟨h1, h2⟩ := chk_ascii_ri _ (mem_of_lookup h)
      simp_all
    · rfl

theorem back_eq_spec (r : Ref) : back r = spec r := by
  obtain ⟨m, n⟩ := r
  by_cases hln : (m, n) ∈ lostNames
  · exact chk_ln _ hln
  rcases Option.eq_none_or_eq_some (reverseNameMapping.lookup (m, n)) with hrn | ⟨r', hrn⟩
  case inr => exact chk_rn _ (mem_of_lookup hrn)
  have hspec : spec (m, n) = decide (m ∉ lostModules) := by simp [spec, hln]
  rcases Option.eq_none_or_eq_some (reverseImportMapping.lookup m) with hri | ⟨m', hri⟩
  · -- the module is written as it is
    have hw : toOld (m, n) = (m, n) := by simp [toOld, hrn, hri]
    rcases Option.eq_none_or_eq_some (nameMapping.lookup (m, n)) with hn | ⟨t, hn⟩
    case inr => exact chk_n _ (mem_of_lookup hn)
    rw [hspec]
    by_cases hlm : m ∈ lostModules
    · simp only [hlm, not_true, decide_false, back, decide_eq_false_iff_not, hw, findClass]
      by_cases h1 : (m, n) = ("__builtin__", "__main__")
      · rw [if_pos h1]; simp
      rw [if_neg h1]
      by_cases h2 : (m, n) = ("__builtin__", "NoneType")
      · rw [if_pos h2]; simp
      rw [if_neg h2]
      by_cases h3 : m = "dill.dill"
      · subst h3
        simp only [if_true]
        rcases Option.eq_none_or_eq_some (nameMapping.lookup ("dill._dill", n)) with h | ⟨t, h⟩
        · have hi : importMapping.lookup "dill._dill" = none := by decide +kernel
          simp [toNew, h, hi]
        · have hc : ∀ e ∈ nameMapping, e.1.1 ≠ "dill._dill" := by decide +kernel
          exact absurd rfl (hc _ (mem_of_lookup h))
      · have hi : importMapping.lookup m ≠ none := by
          rcases chk_lm m hlm hri with h | h | h
          · exact absurd h h3
          · subst h; decide +kernel
          · exact h
        obtain ⟨m'', hi⟩ := Option.ne_none_iff_exists'.1 hi
        have := (chk_i _ (mem_of_lookup hi) hri).2
        simp [h3, toNew, hn, hi, this]
    · simp only [hlm, not_false_eq_true, decide_true, back, decide_eq_true_iff, hw, findClass]
      have hb : m ≠ "__builtin__" := fun h => hlm (by subst h; decide +kernel)
      have hd : m ≠ "dill.dill" := fun h => hlm (by subst h; decide +kernel)
      have hi : importMapping.lookup m = none := by
        rcases Option.eq_none_or_eq_some (importMapping.lookup m) with h | ⟨m'', h⟩
        · exact h
        · exact absurd (chk_i _ (mem_of_lookup h) hri).1 hlm
      simp [hb, hd, toNew, hn, hi]
  · -- the module is renamed
    have hmem := mem_of_lookup hri
    obtain ⟨c1, c2, c3, c4, c5⟩ := chk_ri _ hmem
    dsimp only at c1 c2 c3 c4 c5
    have hw : toOld (m, n) = (m', n) := by simp [toOld, hrn, hri]
    rcases Option.eq_none_or_eq_some (nameMapping.lookup (m', n)) with hn | ⟨t, hn⟩
    case inr => exact chk_ri_n _ hmem _ (mem_of_lookup hn) rfl
    have hs1 : (m', n) ≠ ("__builtin__", "__main__") := by
      intro h
      cases h
      exact hln (by rw [c5 rfl]; decide +kernel)
    have hs2 : (m', n) ≠ ("__builtin__", "NoneType") := by
      intro h
      cases h
      exact hln (by rw [c5 rfl]; decide +kernel)
    rw [hspec]
    rcases Option.eq_none_or_eq_some (importMapping.lookup m') with hi | ⟨m'', hi⟩
    · obtain ⟨c2, c2'⟩ := c2 hi
      simp [back, hw, findClass, hs1, hs2, c3, toNew, hn, hi, c2, c2']
    · by_cases hlm : m ∈ lostModules
      · have hne : m'' ≠ m := fun h => (c1.1 (by rw [hi, h])) hlm
        simp [back, hw, findClass, hs1, hs2, c3, toNew, hn, hi, hne, hlm]
      · have he : m'' = m := by
          have := c1.2 hlm
          rw [hi] at this
          exact Option.some.inj this
        simp [back, hw, findClass, hs1, hs2, c3, toNew, hn, hi, he, hlm]

theorem findClass_old {proto : Nat} (hp : proto < 3) (r : Ref) : findClass proto true r = findClass 2 true r := by
  simp [findClass, hp]

/-! ## The theorems -/

/-- Protocols 0 to 2: the object found as `m.n` comes back as what is found as `m.n` exactly if the names are in ASCII and
not on the two lists. -/
theorem C105_old_protocols_iff (proto : Nat) (hp : proto < 3) (m n : String) :
    ComesBack proto m n ↔ IsAscii m ∧ IsAscii n ∧ m ∉ lostModules ∧ (m, n) ∉ lostNames := by
  have hb := back_eq_spec (m, n)
  have hasc := ascii_toOld (m, n)
  have hs : saveGlobal proto true (m, n) =
      if (ascii m && ascii n) = true then some (toOld (m, n)) else none := by
    simp only [saveGlobal, if_neg (show ¬ 3 ≤ proto by omega), if_true]
    rw [hasc]
  have hspec : spec (m, n) = true ↔ m ∉ lostModules ∧ (m, n) ∉ lostNames := by simp [spec]
  have hback : back (m, n) = true ↔ findClass proto true (toOld (m, n)) = .named (m, n) := by
    rw [findClass_old hp]; simp [back]
  rw [← ascii_iff, ← ascii_iff, ← hspec, ← hb, hback]
  constructor
  · rintro ⟨w, h1, h2⟩
    rw [hs] at h1
    split at h1
    · rename_i h
      cases h1
      simp at h
      exact ⟨h.1, h.2, h2⟩
    · cases h1
  · rintro ⟨h1, h2, h3⟩
    exact ⟨toOld (m, n), by rw [hs]; simp [h1, h2], h3⟩

/-- Protocols 3 and up: every object found by name comes back, except for what has the two names dill reserves, and for
the module `dill.dill`. -/
theorem C105_new_protocols_iff (proto : Nat) (hp : 3 ≤ proto) (m n : String) :
    ComesBack proto m n ↔ m ≠ "dill.dill" ∧ (m, n) ≠ ("__builtin__", "__main__") ∧
      (m, n) ≠ ("__builtin__", "NoneType") := by
  have hs : saveGlobal proto true (m, n) = some (m, n) := by simp [saveGlobal, hp]
  have hp' : ¬ proto < 3 := by omega
  have hiff : ComesBack proto m n ↔ findClass proto true (m, n) = .named (m, n) :=
    ⟨fun ⟨w, h1, h2⟩ => by rw [hs] at h1; cases h1; exact h2, fun h => ⟨_, hs, h⟩⟩
  rw [hiff]
  simp only [findClass, hp', decide_false, Bool.false_and]
  by_cases h1 : (m, n) = ("__builtin__", "__main__")
  · simp [h1]
  · by_cases h2 : (m, n) = ("__builtin__", "NoneType")
    · simp [h2]
    · by_cases h3 : m = "dill.dill"
      · subst h3; simp
      · simp [h1, h2, h3]

/-- With `fix_imports=False` on both sides nothing is renamed at any protocol: what is written is looked up, as at
protocol 3. -/
theorem C105_no_fix (proto : Nat) (m n : String) (hm : m ≠ "dill.dill") (hb : m ≠ "__builtin__")
    (ha : 3 ≤ proto ∨ (IsAscii m ∧ IsAscii n)) :
    saveGlobal proto false (m, n) = some (m, n) ∧ findClass proto false (m, n) = .named (m, n) := by
  rw [← ascii_iff, ← ascii_iff] at ha
  constructor
  · rcases ha with h | ⟨h1, h2⟩
    · simp [saveGlobal, h]
    · by_cases h : 3 ≤ proto <;> simp [saveGlobal, h, h1, h2]
  · simp [findClass, hb, hm]

theorem chk_dict : ∀ e ∈ nameMapping, e.1.2 ≠ "__dict__" := by decide +kernel
theorem chk_p2 : importMapping.all (fun e => python2Modules.contains e.1) = true ∧
    python2Modules.all (fun m => (importMapping.lookup m).isSome) = true ∧
    importMapping.all (fun e => e.1 != e.2) = true ∧ importMapping.lookup "dill.dill" = none ∧
    importMapping.lookup "dill._dill" = none := by decide +kernel

/-- The namespace of a module, when written as a reference (the globals of its functions), comes back as the namespace of
that module, exactly if at protocols 0 to 2 its name is not one that a module had in Python 2. -/
theorem C105_namespace_iff (proto : Nat) (m : String) :
    findClass proto true (saveNamespace m) = .named (m, "__dict__") ↔
      m ≠ "dill.dill" ∧ (proto < 3 → m ∉ python2Modules) := by
  obtain ⟨p1, p2, p3, p4, p5⟩ := chk_p2
  rw [List.all_eq_true] at p1 p2 p3
  have hN : ∀ m', nameMapping.lookup (m', "__dict__") = none := by
    intro m'
    rcases Option.eq_none_or_eq_some (nameMapping.lookup (m', "__dict__")) with h | ⟨t, h⟩
    · exact h
    · exact absurd rfl (chk_dict _ (mem_of_lookup h))
  have hI : m ∈ python2Modules ↔ importMapping.lookup m ≠ none := by
    constructor
    · intro h
      have := p2 m h
      intro h'
      rw [h'] at this
      cases this
    · intro h
      obtain ⟨m', h⟩ := Option.ne_none_iff_exists'.1 h
      simpa using p1 _ (mem_of_lookup h)
  have hs : findClass proto true (saveNamespace m) =
      .named (if proto < 3 then toNew (if m = "dill.dill" then "dill._dill" else m, "__dict__")
        else (if m = "dill.dill" then "dill._dill" else m, "__dict__")) := by
    simp [findClass, saveNamespace]
    by_cases h : m = "dill.dill" <;> simp [h]
  rw [hs]
  by_cases h : m = "dill.dill"
  · subst h
    simp only [if_true]
    by_cases hp : proto < 3 <;> simp [hp, toNew, hN, p5]
  · by_cases hp : proto < 3
    · rcases Option.eq_none_or_eq_some (importMapping.lookup m) with hi | ⟨m', hi⟩
      · simp [h, hp, toNew, hN, hi, hI]
      · have hne : m ≠ m' := by simpa using p3 _ (mem_of_lookup hi)
        simp [h, hp, toNew, hN, hi, hI, Ne.symm hne]
    · simp [h, hp]

/-- The references dill spells out itself mean what they stand for at every protocol. -/
theorem C105_fixed_refs (proto : Nat) : ∀ e ∈ fixedRefs, findClass proto true e.1 = e.2 := by
  by_cases hp : proto < 3
  · have h : ∀ e ∈ fixedRefs, findClass 2 true e.1 = e.2 := by decide +kernel
    intro e he
    rw [findClass_old hp]
    exact h e he
  · have h3 : ∀ r, findClass proto true r = findClass 3 true r := by
      intro r; simp [findClass, hp]
    have h : ∀ e ∈ fixedRefs, findClass 3 true e.1 = e.2 := by decide +kernel
    intro e he
    rw [h3]
    exact h e he

/-- A name that is not ASCII cannot be dumped at protocols 0 to 2: an error, not a wrong reference. -/
theorem C105_not_ascii (proto : Nat) (hp : proto < 3) (m n : String) (h : ¬ (IsAscii m ∧ IsAscii n)) :
    saveGlobal proto true (m, n) = none := by
  have hasc := ascii_toOld (m, n)
  rw [← ascii_iff, ← ascii_iff] at h
  simp only [saveGlobal, if_neg (show ¬ 3 ≤ proto by omega), if_true]
  rw [hasc]
  have : (ascii m && ascii n) = false := by
    simp only [not_and, Bool.not_eq_true] at h
    simp only [Bool.and_eq_false_iff]
    by_cases h1 : ascii m = true
    · exact Or.inr (h h1)
    · exact Or.inl (by simpa using h1)
  simp [this]

/-! ## What is lost -/

/-- The class FileNotFoundError pickled at protocol 2 loads as OSError, without an error … -/
theorem C105_exception_replaced :
    ∃ w, saveGlobal 2 true ("builtins", "FileNotFoundError") = some w ∧
      findClass 2 true w = .named ("builtins", "OSError") :=
  ⟨("exceptions", "OSError"), by decide +kernel⟩

/-- … anything in a module of the user's called `commands` is looked for in `subprocess` … -/
theorem C105_user_module_lost :
    ∃ w, saveGlobal 2 true ("commands", "Start") = some w ∧
      findClass 2 true w = .named ("subprocess", "Start") :=
  ⟨("commands", "Start"), by decide +kernel⟩

/-- … and a function of that module, pickled by value, gets the globals of `subprocess`; likewise the namespace of the
standard library's own `dbm` is taken for that of `dbm.ndbm`. -/
theorem C105_wrong_namespace :
    findClass 2 true (saveNamespace "commands") = .named ("subprocess", "__dict__") ∧
    findClass 2 true (saveNamespace "dbm") = .named ("dbm.ndbm", "__dict__") := by decide +kernel

/-! ## Reachability of the hypotheses -/

example : ComesBack 2 "queue" "Queue" ∧ saveGlobal 2 true ("queue", "Queue") = some ("Queue", "Queue") := by
  refine ⟨⟨("Queue", "Queue"), ?_, ?_⟩, ?_⟩ <;> decide +kernel

example : ComesBack 0 "my.package" "Class" := ⟨("my.package", "Class"), by decide +kernel, by decide +kernel⟩

example : ¬ IsAscii "größe" := by
  rw [← ascii_iff]; decide +kernel

example : saveGlobal 2 true ("m", "größe") = none ∧ saveGlobal 3 true ("m", "größe") = some ("m", "größe") := by
  decide +kernel

end Verif.OldNames
