# Formal model of uqfoundation/dill in Lean 4

## Layout

* `lean/Verif/Model/*.lean`  executable model, each definition cites `/repo` file:lines.
* `lean/Verif/Spec/*.lean`   small specifications that do not mention the model's helpers.
* `lean/Verif/Core/*.lean`   the simulation and termination proofs behind C01-C05.
* `lean/Verif/Props/*.lean`  one theorem (or a few) per property, with non-vacuity `example`s.
* `MANIFEST.json`            property -> theorem names.
* `seeded/LOG.jsonl`         log of the mutation experiments (wrong programs).

## Trusted base

* Lean 4.33.0's kernel.  Axioms: at most `propext`, `Classical.choice`, `Quot.sound`
  (checked with `#print axioms`).  No axiom is added, no compiled evaluation is used.
* The reading of `/repo/dill/*.py` into `Verif/Model`.  The code was not run.
* The reading of the CPython parts dill calls (`pickle._Pickler.save`, `save_reduce`,
  `memoize`, `save_tuple`, the unpickler's opcode loop, `dict`, `warnings.filterwarnings`,
  `logging`, POSIX `open`), which the model includes as ordinary definitions or as
  parameters, each marked in a comment.

## Plan per property

| id | what is modelled | how it is proved |
|----|------------------|------------------|
| C01 | source heap, `Pickler.save` with memo and `_postproc`, opcode stream, unpickler VM | simulation invariant by induction on the recursion of `save`; then path-based isomorphism |
| C02 | same `save` with explicit recursion depth | rank on creation-time edges bounds the depth |
| C03 | cells in the same model, incl. placeholder + deferred `setattr` | corollary of the simulation, for every cell reached |
| C04 | copied `__globals__` dict, incl. `_setitems` deferred | corollary of the simulation |
| C05 | VM returns `none` on underflow / missing memo / wrong kind | corollary: VM never returns `none` on `save` output |
| C06 | module table, attribute trees, `_import_module`, `_getattribute`, `_locate_function`, `save_global`, `find_class` | unfolding + induction over dotted path |
| C07, C08 | the six `CODE_PARAMS` layouts, `save_code` emission and `_create_code` decoder with its isinstance dispatch | case analysis over the layouts, for all field values |
| C09-C11 | file system (name -> bytes), `open` modes, `_save_file`, `_create_filehandle` | case analysis + arithmetic, for all contents |
| C12, C13 | directory with symlinks, syscalls, attacker action before each syscall | invariant over every schedule |
| C14 | `_module_map`, `_lookup_module`, `_stash_modules`, `_restore_modules` over association lists | induction over the namespace |
| C15-C17 | `load_module`, `load_module_asdict` as state machines over `sys.modules` and module heap, failure injected at any step | case analysis; C17 is false of the code for runtime and dotted names: negation + partial |
| C18, C19 | byte-level head for protocols 0-5, tokenizer loop of `_identify_module`, `_PeekableReader.peek` | induction over bytes |
| C20, C21 | dispatch tables as ordered maps, `register`, `_extend`, `_revert_extension`, `MetaCatchingDict` | invariant over call histories |
| C22 | `find_chain` BFS loop | loop invariant, any graph |
| C23-C27 | code objects as trees, `nestedcode`, `nestedglobals`, `globalvars`, `freevars` | structural induction; C26 false: negation + partial |
| C28-C30 | `pickles` with every step allowed to raise; `warnings.filters`; `badobjects` etc. on object trees | case analysis / induction on depth |
| C31-C33 | `TraceAdapter.trace` state machine, `TraceFormatter.format`, `TraceManager` | induction over call trees |
| C34 | `capture` as bracket over a small program language | induction over programs |
| C35 | writers/readers of the `#NAME:` tag line over characters | list lemmas |
| C36 | `indent`, `outdent`, `_outdent`, `indentsize`, `expandtabs` | induction over lines |
| C37, C38 | `memorise`, `whats_changed`, `has_changed` on arbitrary finite graphs | DFS invariants |
| C39, C40 | `_get_typedict_type`, MRO lookup, `_create_namedtuple` | induction over bases |
| C41 | the state dict `save_function` builds and `FunctionType` defaults | case analysis; false in corners: negation + partial |
| C42, C43 | option resolution, `Unpickler.load` class re-pointing | case analysis over histories |
| C44-C46 | lock, rlock, weakref, dict view reducers | case analysis |
| C47 | `getblocks` while loop | decreasing measure |
| C48 | `_getimport` | string cases |
| C49 | `Reduce`, `Getattr`, `__reduce__` | evaluation lemma |
| C50 | `_getimport` with the import system as a parameter | induction over the enclosing packages; false: negation + partial |
| C51 | `whats_changed` on arbitrary graphs | DFS invariants; false in one direction: negation + partial |
| C52-C54 | sys.modules, namespaces as dict objects, `save_module`, `_import_module`, `_is_builtin_module`, the BUILD opcode; running an import is an arbitrary transformation | case analysis, dict lemmas; false in corners: negation + partial |
| C55, C56 | `save_module_dict`'s four branches, `dict ==` with values whose `==` may raise | case analysis; false: negation + partial |
| C57 | `repr` of ranges and its evaluation over characters | decimal digit lemmas |
| C58-C62 | `save_lru_cache`, `_create_capsule`, `_getattr`, property / static / class methods, Tuple aliases | case analysis; negations where the code is wrong |
| C63-C64 | `getsource`: the alias code and the import expression, on lists of characters | exact output per source shape; frame theorem for all inputs; witnesses |
| C65 | `importable`'s two-way loop over helpers that may fail | case analysis over all helpers and options |
| C66-C67 | `dumpsource`, `_enclose`, `bytes.replace`, with the `indent` of C36 | induction on `replace`; exact text |
| C68, C69 | encoder, framer, unframer and reader of the bytes of protocols 2-5 over Core's opcodes | decode of encode for every framing; simulation of the protocol-4 memo; two runs of the reader on a file and on a strict prefix |
| C70-C72 | the body of `dump_module` over SafeOpen's file system and Settings' pickler options; pickling is a parameter that may fail after any writes | case analysis of every run; witnesses |
| C73 | `check`'s command, CPython's `repr` of bytes and `str.split`, and the part of Python's grammar that reads the literal back | induction over the bytes; case analysis over all 256 values |
| C74 | `temp.dump/load/dumpIO/loadIO` over files, handles with write buffers and events of others | invariant kept by every event |
| C75 | the choice of `globs` in `save_function` on top of Modules' import system; sharing of copies from Core | case analysis; Core's isomorphism |
| C76 | Core's `save` and `exec` on a pickler and unpickler that live on, `clear_memo`, dumps that raise | Core's simulation invariant across dumps; `_postproc` is empty after every successful dump |
| C77 | creation and registration of classes (ABCMeta.register, __subclasscheck__), the actions of a pickle of classes in every admissible order | invariant: the loaded world is a part of the original; induction over the actions and over the derivation of issubclass |
| C78 | `load_types` on `dill.objects` and the namespace of `dill.types`, the reload of objtypes | dict lemmas, induction over histories; false in two corners: negation + partial |
| C79 | `_reverse_typemap`, `_typemap`, `_load_type` over arbitrary namespaces | inversion of a dict with unique keys |
| C80 | `findsource`'s patterns on characters (with \\s and \\w as parameters), its loop over lines for functions and for classes | patterns proved equivalent to a grammar of the line; induction over line numbers; negations where the code is wrong |
| C81 | the saved module as a graph of Model/Core (`save_module`, `save_module_dict`), BUILD of the module's namespace over the target's | on top of the C01 isomorphism: induction over paths with steps through the globals of functions |
| C82 | `_closuredsource` and the stitching as a recursion over closures; `getsource`, `globalvars` as parameters | layout of the lines by list induction; recursion by induction on the recursion limit; three witnesses |
| C83 | `outermost` over a namespace, with the source blocks as parameters | list induction; witness for a renamed function |
| C84 | `nestedcode` with Python's equality of code objects, `gc.get_referrers` and the attribute tests | mutual induction over the code tree; witness for equal code objects |
| C85 | `_closuredimport`: the pattern, the choice of the line, the name taken from it | equivalence of the matcher with its specification; five witnesses |
| C86 | the same pickler as C01, errors included | invariant: what is still to be saved does not lead back eagerly to an object being created; with C02 and C01 total correctness |
| C87 | `_save_file` and `_create_filehandle` on names that are descriptor numbers | negation by witness; case analysis for the case that holds (number not in use) |
| C88 | `is_dill` and the tests of save_module_dict and save_module that use it | case analysis on the answer, reusing C53 and C55; negation by witness (module `armadillo`; subclass outside dill with another main module) |
| C89 | `load_module` on a target that matches the file, over the interpreter model of C16/C17 | invariants (sys.modules grows, module objects are kept) through the side effects of unpickling, then the effect of BUILD on one module object |
| C90 | the numpy registrations in `Pickler.save`, the three tests, `_create_array` | induction over histories of pickling, registering and redefining classes; negation by witness |
| C91 | `getname`, `_namespace`, `_isinstance`, `getimport` on strings, over the model of `_getimport` | the text is parsed by a small specification of import statements and its effect on names computed; string lemmas by induction; negations by witness |
| C92 | `_importable` over the same | case analysis of the ways; the instance text from C91; negation by witness |
| C93 | `_matchlambda` and the loop of `findsource` over it; `eval` is a parameter | the cut of a line at its first `lambda ` and its first colon is specified by concatenation; induction on the history; negations by witness |
| C94 | the class creation protocol (prepare, body, metaclass, hooks) as Python runs it for a class statement and as dill's two ways of rebuilding run it | classes are an inductive predicate (statement, then assignments and deletions); exact characterisation of the attributes that survive; negations by witness |
| C95 | the namespace of dill.source shared by all threads, the atomic steps of the wrapper | histories as an inductive predicate, invariant: `_` holds the function whose text was executed last; one thread in full; negations by witness |
| C96 | the import system (sys.modules, bodies with nested imports, failures) around the memo of Model/Diff | invariant over nested executions: records come from import calls that returned; composed with C37_history; negation by a circular import |
| C97 | reference counts as a parameter | exact by cases on the number of references the call itself holds; negations |
| C98 | CPython's dictionary with holes and its iterator, other threads as a schedule of operations | the copy is one step: exact; refimported loop: induction over the steps with a shape invariant; negations by three schedules |
| C99 | super objects, method resolution orders, super_getattro / supercheck of CPython, save_super | simulation: lookups commute with every copy of the world; negations by a base class that defines `__self__` and by a reassigned `__class__` |
| C100 | small-step model of load_module_asdict calls: looks at and changes of sys.modules, one schedule for all threads | invariant by induction on the schedule for calls whose names do not collide in time; frame invariant for all schedules; negation by two overlapping calls |
| C101 | capture, catch_warnings in save_code and the filter of pickles as instruction lists on one shared setting, interleaved with threads outside dill | invariant with a stack of blocks by induction on the schedule, for nested and for disjoint blocks; negations by overlapping schedules |
| C102 | _create_filehandle as a program of system calls, other processes acting between any two, killed between any two | property of every call by induction on the program; refinement to the model of C09-C11 when nobody else acts; negations for FILE_FMODE |
| C103 | two worlds of Model/Core related by a partial bijection of addresses | simulation: related picklers stay related through every action, by induction on the recursion limit; corollary for unreachable objects; witnesses for set order |
| C104 | lists, sets and dicts under a heap that changes arbitrarily between steps; the batches of `pickle.py` and the checks of the CPython iterators | an invariant that follows one container through the dump, instantiated seven times; a decreasing measure for termination; four witnesses |
| C105 | `save_global`, dill's `find_class`, the references dill writes itself, and the four tables of `_compat_pickle` in full (generated) | for all strings: case split on the table entries, each table checked in full by the kernel; exact iff |
| C106 | the order of creation, hashing and completion under `save`, `save_reduce`, `save_tuple/list/dict/set/frozenset` with the memo and batches | an invariant of the call stack: everything under construction reaches the current object, so a key that does not reach its container is complete with all it reaches; completeness of the log by a second invariant |
| C107 | the file as bytes, `open(O_TRUNC)`, `write` at each dump's own offset, `read` at the reader's; any schedule of these steps (`Overwrite`) | invariants over the schedule: the file is the old one or a beginning of the new one, what the reader has is a head of the old file followed by bytes of the new at their place; then C69 (a beginning never loads) and C01 on bytes |
| C108 | a bound method as a reduction `MethodType(func, self)` of `Core` (`Methods`) | from C01: paths of the copy and where they meet; the shape of the loaded object |
| C109 | the reader of Model/Wire with a bound on protocols: the PROTO check and a table of when each opcode was introduced | first byte of every encoded opcode; decode of encode through the bounded reader; the first opcode for an older reader |
| C110 | the markers of dataclasses as names in the graph of Model/Core; what the dataclasses module reads from the source class and from the loaded one | from the isomorphism of C01, entry by entry of the class dict, of the table of fields, of the slots of each field |
| C111 | the opcodes written by `dumps` of Model/Core, counted | an account (Core/Cost, Core/Cost2, generic in how the account is kept): every object carries a budget that pays for starting it once, memoising an object refills all the others (Core/Cost3); a family of graphs shows that quadratic growth does occur. Without knots (no object but a cell reachable from what it is created from) nothing has to be refilled but cells, once: linear (Core/Cost4) |
| C112 | iterated `load ∘ dumps` of Model/Core; what was loaded is a source graph again (`again` in Spec/Again, checked to have the same paths, kinds and identities) | the isomorphism of C01 transports well-formedness, finiteness, the absence of creation cycles and of circular functions and classes to the loaded graph; C86 then gives the next round trip; induction on the number of round trips |
| C113 | `save` on sets and frozensets at every protocol, on a graph that says what is pickled before and what after the memo entry of each object (Model/OldSets) | negation by witness; an exact characterisation: the memo is an order in which everything comes after what it is made from (invariant), conversely well-founded induction on what is left to memoise and on the relation "is made from"; what is written is run by an unpickler, and a simulation (the memos correspond, every copy is made and filled from the copies) gives the copy |
| C114 | the main programs of the three scripts over a file system of names and bytes, with `os.path.splitext` (Model/Scripts) | negations by witness; exact descriptions of what is printed and of which file changes, by induction on the arguments and case analysis; the names for which input and output coincide, from the last dot and the last slash |
| C115 | what `write_info_file` writes, the Python string literal as it is read back, and `dill/__init__` (Model/Info) | negation by witness; for texts without backslashes an exact condition, from the reader being sound and complete, by induction on the text |

## What is modelled, part by part

`Core` (C01-C05): `Pickler.save` with the memo and dill's `_postproc` queue (`_save_with_postproc`, _dill.py:1112-1160),
`save_reduce`, `save_tuple`, `save_list`/`save_dict`/`save_set` in batches, `save_frozenset`, `save_cell`, `save_function` (globals by
reference or copied, `_setitems`, closure cells), `save_type` for classes saved by value, the opcode stream and the
unpickler that runs it. Objects: leaves (integers, floats as their 64 bits, strings, bytes, everything found by name), tuples, frozensets, lists, dicts, sets (lists of distinct elements in iteration order; `__hash__` and `__eq__` are not run; protocol >= 4), reduce-style
objects with state, list items and dict items, cells, functions, classes. Hypotheses (`Spec/WF.lean`), true of every
Python graph the model describes: no empty tuples as heap objects (they are atoms), dicts without duplicate keys, the
callee of a reduction is not one of dill's own helpers, a globals dict kept by reference is an atom, copied globals have
at least one entry (`__name__`), and cells do not contain dill's `_CELL_EMPTY` sentinel. An object with list items that
can be reached from its own class or constructor arguments (`SelfMade`) may get its items several times over; `CopyObj`
allows exactly that (Core/Grow.lean proves that saving a value memoises only what can be reached from it, so nobody else is
affected). A function or class that is met again while it is being created (`Circular`: one of its own
defaults, an attribute of itself, ...; not through a cell or through globals that name it) is saved by `save_global`, with dill's
recursive-self-reference warning: `World.byName` says what that writes (PicklingError if nothing), and the copy is allowed to have
a reference to the name there (`CopyVal`, `ByName`). About the names `WF` assumes: they are globals of a module other than `dill._dill` and `builtins`,
no two objects saved by value have the same one, and nothing else in the graph has it (a name leads to one object). Not modelled: framing,
protocol-dependent choice of opcodes, `persistent_id`, out-of-band buffers, memo ids reused by garbage (CPython keeps
objects alive in the memo), the equality test `obj == pickler._main.__dict__` in `save_module_dict`.

`Locate`, `Identify`, `Peek`, `Dispatch`, `Settings`: `_locate_function`, `save_global`, `_import_module`, `find_class`;
the byte-level head of pickles at every protocol and `_identify_module`; `_PeekableReader`/`BufferedReader`;
`register`/`_extend`/`_revert_extension`/`MetaCatchingDict`; option defaulting and `Unpickler.load`. Not modelled there:
text encodings of protocol-0 names outside ASCII, `pickle` protocols below 4 for nested names (C06).

`Code`, `FileHandle`, `SafeOpen`, `Session`, `Stash`: `save_code`/`_create_code`; `_create_filehandle`; the `os.open`
flags of `dump_module`/`load_module` against an adversary acting between system calls; `load_module`,
`load_module_asdict`; `_stash_modules`/`_restore_modules`.

`Detect`, `GlobalVars`, `Chain`, `Pickles`, `Logger`, `Temp`: `nestedcode`, `nestedglobals`, `freevars`, `globalvars`,
`find_chain`/`parents`/`children`, `pickles`, `baditems`/`badobjects`/`badtypes`/`errors`, `TraceAdapter`/`TraceManager`,
`capture`, the tag lines of `dump_source`/`load_source`. The disassembly text is a list of lines with an opcode name and
a shown argument; the garbage collector's referrers are an arbitrary finite relation.

`Locks`, `Shims`, `DictView`, `Weakref`, `FuncAttrs`, `NamedTuple`, `TypeDict`: the named savers and creators, with the
CPython behaviour they rely on (C RLock, `mappingproxy |`, C3 merge and `type()`) written out in the model. `TypeDict`
hypotheses: the world is built by `type()` calls (`Reach`), saved classes are ordinary (no pinned parent methods, no
private slots, no own `__dict__`/`__weakref__` slot entries), bases of saved classes are saved or kept by reference
consistently. Not modelled: metaclasses other than `type`, ABC registries, `__init_subclass__`/`__set_name__`, the
`__qualname__` post-processing of nested classes.

`Indent`, `GetBlocks`, `GetImport`, `Diff`: `source.indent/_outdent/outdent` (ASCII white space), the block search loop
(`inspect.getblock`, regexes and `indentsize` are parameters; `findsource` is C80), `_getimport`
(`_intypes` and `exec` are parameters), `dill/__diff.py` except `_imp`, `release_gone`, numpy.

`Modules`, `Reducers`: `save_module`, `_is_builtin_module`, `_is_imported_module`, `_import_module`, `save_module_dict`,
`find_class` for namespaces; `save_singleton`, `save_lru_cache`, `_create_capsule`, `_getattr`, `save_property`,
`save_classmethod`, `_create_typing_tuple`. Not modelled there: module-level `__getattr__`/`__setstate__`, non-string dict
keys, effects of loading the values of a module's state.

`Wire`: the bytes of a pickle at protocols 2, 3, 4 and 5 of every abstract opcode of `Core`, and the reader. Frame boundaries and
whether a global's names come from the memo are universally quantified choices. Reading decodes up to STOP and then executes;
whether a BUILD calls `__setstate__` is a property of the class, given to the reader as a list. Not modelled: protocols 0 and 1, Python 2 names at protocol 2 (C105),
out-of-band buffers, BINUNICODE memoisation of atoms.

`DumpModule`: arguments, module resolution, opening, pickler options, closing. `_import_module`, `_stash_modules` and what the
pickler writes are parameters; warnings do not raise and `close` does not fail.

`Check`: `check` and the reading of its command by the other interpreter.  `TempFile`: temp.dump, load, dumpIO, loadIO; the file system is
modelled by name (POSIX), pickling writes chunks and may raise.  `FuncGlobals`: which dict becomes a pickled function's globals.

`CorePickler`: histories of dumps (also failing ones: Core's `SObj.bad` is an object whose saving raises, and errors carry the pickler's
state) and clear_memo on one pickler, and of loads on one unpickler.

`Abc`: class worlds with bases and registries, `issubclass` as an inductive relation, `register` with its early return and cycle check, and the create/register
actions of a pickle. Not modelled: `__subclasshook__`, ABC caches.

`LoadTypes`, `TypeNames`: the registries of `dill.types` and of the built-in types pickled by name.

`FindSource`: the search through the lines; `_matchlambda` (which evaluates the line) is a parameter, and so are the lines.

`SessionGraph` (C81): `save_module` for the module given to `dump_module`, references to its namespace, the namespace after BUILD. A function's `__globals__` counts as main's when it was written as `__builtin__.__main__` (whether it was: C55, C56, C75). Not modelled there: IPython singletons, `refimported` (C14), a module global named `__setstate__`.

`Closured` (C82): `_closuredsource`, `_code_stitcher` and the source branch of `importable`, nested calls up to a recursion limit. The texts `getsource` gives are parameters (their alias lines: C63).

`Outermost` (C83, C84): `outermost`, `referrednested`. The source blocks (C80 and GetBlocks) and the heap are parameters.

`ClosuredImport` (C85): `_closuredimport`. `outermost`, `getname`, `findsource` are parameters; the import text for a name is C50's. ASCII word characters.

Model/FileFd: handles whose name is a descriptor number. Not modelled: descriptors closed when a leftover handle is collected; decoding errors.

Model/IsDill: `is_dill` (every class has an `mro`), the tests using it in save_module_dict and save_module. Not modelled: its use in `_locate_function` is the field `sessionMain` of Model/Locate.

Props/SessionLoad uses Model/Session; no new model. Assumed: unpickling the values only imports modules that exist (`Harmless`).

Model/Numpy: classes as records of what the tests ask of them; numpy's own reduce/setstate are taken as restoring class and data. Props/EndToEnd composes C86, C05, C01 and C81 in bytes.

Model/ObjImport: `getname`, `_namespace`, `_isinstance`, `getimport`, `_importable` as functions of what the object answers to getmodule, repr, str and getattr; a getsource that fails inside getname is taken to raise something else than AttributeError; `fqn=True` is `'.'.join(_namespace(obj))` and not stated separately.

Model/MatchLambda: `_matchlambda` in full (source.py:52-102) with `eval`, the bytecodes and the variables of the lambda as parameters; the part after line 95 raises TypeError in Python 3 (`bytes.split` of a number).

Model/ClassHooks: `_create_type`, `_setitems` and the creation part of `save_type` over a model of Python's class creation; hooks are sequences of assignments `cls.a = ...` of fresh values or keyword parameters; what `_get_typedict_type` leaves out is Model/TypeDict.

Model/Wrap: `_wrap` as a transition system over threads sharing the namespace of dill.source; the texts (importable) are parameters given by the assignments they make (Model/Source, Model/ClosuredImport are about them).

Model/DiffImport: `_imp` and `release_gone` of __diff.py over Model/Diff; Python's import system modelled as: enter in sys.modules, run body, remove if it raises; bodies that change sys.modules themselves are not modelled.

Model/Snapshot: the reading of the module's namespace by save_module and _stash_modules with other threads; dict.copy is one step (interpreter lock); objects are opaque (what other threads do inside the values is not modelled), _module_map's own iteration over sys.modules is not modelled.

Model/Super: save_super with CPython's attribute access on super objects and the constructor; metaclasses with an own mro() and descriptors that change classes while they run are not modelled.

A module global named `__setstate__`: modelled in `Modules` (C53_setstate_called, C53_setstate_hijacks); the models of load_module (`Session`, `SessionLoad`, `SessionGraph`, `Stash`) assume that the module being restored has none.

Model/AsDictThreads: load_module_asdict (update=False) as steps on sys.modules interleaved over threads; dotted names, runtime modules and unreadable files are not in this model (they are in SessionLoad).

Model/Swaps: the save/replace/restore instructions of temp.capture, of warnings.catch_warnings as used in save_code, and of pickles; showwarning and the onceregistry are not modelled.

Model/FileRace: _create_filehandle system call by system call; proved equal in outcome to Model/FileHandle when no other process acts (C102_alone).

| `Overwrite` | session.py:57-82, 303-319, 503-552 | the system calls of dump_module and load_module on one file, interleaved |

| `Methods` | _dill.py:1527-1532 | save_instancemethod0 |

`Markers`: what `save_dataclasses_*` write; `Props/Markers` reads the table of fields and the slots of the fields in the source graph and in the loaded graph, as the dataclasses module does (a table found in the class's own dict, state of a field = pair of None and the dict of its slots).

`Core/Cost` … `Core/Cost4`: the accounts for C111; no new part of the code, all of Model/Core's pickler.

`Spec/Again`, `Props/Generations`, `Core/KeysOnce`: no new part of the code, all of Model/Core's pickler and unpickler, iterated. A loaded function with globals of its own is pickled with a copy of all of them (`recurse=False`; the globals of a module are found by name), `{'__name__': obj.__module__}` first, where `obj.__module__` is taken from those globals. Nothing loaded is found under its name (`byName` is `none`): `save_global` compares identities and finds the original or nothing there.

`Model/OldSets`: `save_set` and `save_frozenset` below and from protocol 4 on. (Core, which has everything else, has sets from protocol 4 on only; of a set at protocols 2 and 3 read C01-C05 as of a call of `set` with a list; C106 has both.)

`Model/Scripts`: `scripts/undill`, `scripts/get_objgraph`, `scripts/get_gprof`.  Not: links, permissions, what the shell makes of the arguments, what the tools that are called do besides writing their file.

`Model/Info`: `version.write_info_file` and the reading of the two literals it writes.  Not: escapes with digits and names, the code after a literal that ends early, the making of the description from the README.

`Source`: the alias code and the import expression of `getsource`, `importable`'s loop (its import and source helpers are
parameters that may fail), `_enclose`, `dumpsource`. The text of the pickle is a parameter.

Not modelled at all: `dill.pointers` beyond chains, ufuncs and the numpy savers, `__diff`'s module import hook, the unittest suite, the command-line tools.

## Where the code and the property disagree

Each is a theorem about the model with a concrete witness, beside a `_partial` theorem that holds.

* C01: an instance of a list subclass (or a deque, ...) that can be reached from its own class or constructor arguments gets its items twice, because dill is built on the Python `pickle._Pickler`, whose `save_reduce` appends the items again when the object was memoised meanwhile (C01_items_repeated: `[1, 2]` loads as `[1, 2, 1, 2]`). For every other object the copy is exact.
* C01, C45, C75, C81: a class that is an attribute of itself (`A.me = A`), or a function among its own defaults, is pickled as a reference to its name: `loads` gives back whatever has that name, not a copy, and the steps that follow (`__qualname__`, the function's state) are applied to that live object (C01_class_of_itself_by_name). With a copy of the globals that names the function, `dumps` raises KeyError (C04_own_default_raises_keyerror).
* C08 line tables between 3.8/3.9 and 3.10+; C11 `wb`, `x` modes and carriage returns under FILE_FMODE; C17 runtime and
  dotted modules; C18 names longer than the peeked bytes, `dill._dill` itself; C20 user functions left in pickle's table.
* C22 `parents` ignores `ignore`; C24 names that display `_GLOBAL`, `recurse=False`; C26 mutual recursion and recursive
  closures loop for ever; C28 warning filters lost or leaked; C30 failing items equal to None, re-created classes.
* C32 sizes from 1024 bytes on show the wrong unit and from 2^50 on raise; C33 nested redirects, NOTSET; C35 Latin-1 / UTF-8.
* C36 tabs make `outdent` delete code, `indent` may indent nothing; C39 eight ways a class changes (see the manifest);
  C40 a name that leads to another object; C41 `__qualname__` of wrapped functions, removed docstrings.
* C44 the copy of a free RLock can never be acquired; C45 a proxy whose referent prints like an address; C46 views of
  OrderedDicts are detached; C49 eager defaults; C50 failing import strings are returned; C51 changes behind a cycle.
* C52 modules made at run time and submodules hidden by a class of the same name; C54 directory names compared as string
  prefixes; C55 a copy of the main namespace loads as the live namespace; C56 a dict's `__name__` is imported when it is
  pickled, `{'__name__': ''}` raises.
* C57 ranges with huge bounds; C58 `typed` before 3.9; C59 capsules in submodules; C60 a class named like one in dill's
  namespace; C61 doc strings of properties, attributes of static methods; C62 `Tuple[()]` from 3.11+ to older versions.
* C63 aliases of renamed functions, coroutine functions, multi-line decorators, lambdas in calls; C64 classes with an
  underscore in their name; C65 the fallback import is about the dict of globals; C66 the module name is replaced in the
  bytes of the pickle without its length, and in data.
* C70 the session file is truncated before pickling starts: an unpicklable object or a keyword Pickler does not know
  (`protocol=2`) destroys it; C72 both argument names are accepted when the new one is falsy.
* C73: an interpreter path with white space is split (C73_path_with_space; a FIXME in the code); the documented keywords of loads and `verbose` never reach the other process (C73_load_options_dropped).
* C74: with delete=False a failed temp.dump leaves a partial file whose name is lost (C74_failed_dump_leaves_file).
* C75: functools.wraps sets `__module__` to the wrapped function's module, so the wrapper's module namespace is copied (C75_wraps_copies_namespace); with recurse=True, or for functions made by exec, copies are never shared (C75_recurse_copies, C75_copies_apart).
* C76: after a dump that raised inside a function or class, `_postproc` still has its entry, also after clear_memo; a closure dumped later loads with None in its cells (C76_failed_dump_spoils_pickler).  Two pickles of two picklers read by one Unpickler are mixed up (C76_two_picklers_one_unpickler; CPython's Unpickler does the same).
* C77: a registration with an ABC pickled by name is forgotten (C77_named_abc_forgets), likewise one with a subclass that is not in the pickle (C77_subclass_not_pickled); when a plain base of an ABC is registered, the order of the registry (a set, run reversed) can lose a virtual subclass (C77_order_loses_registration) or make loads raise RuntimeError 'Refusing to create an inheritance cycle' (C77_order_raises).
* C78: `StreamReader`, whose name lacks 'Type', stays in dill.types after load_types(unpickleable=False) (C78_streamreader_stays); load_types(pickleable=False) loads the registered, pickleable, types nevertheless (C78_registered_loaded).
* C80: `async def` functions and `lambda*args` in files get the source of the definition above (C80_async_function_wrong_source, C80_star_lambda_wrong_source); typed-in functions get the source of a later one whose def line contains the name (C80_typed_in_wrong_function), or the first line of the history (C80_unknown_function_gives_first_line); of several indented classes the wrong one is taken, tabs sort before spaces (C80_indented_class_wrong), and a docstring line can be taken for the class (C80_docstring_taken_for_class).
* C82: `_closuredsource` (source.py:892-929): (1) names of different scopes share one namespace: a function in the closure with its own variable `x` overwrites the `x` of the target (`C82_name_reused`); (2) when a function in the closure has a decorator of its own, the alias is bound to that function and the target is only defined inside its enclosing function (`C82_wrong_function`); (3) for an inner function that calls itself the recursion never ends: the text is an import followed by as many copies of the function as the recursion limit allows, or there is no answer (`C82_recursive_inner`).
* C83: `outermost` only considers names that occur in the text of the enclosing block: a function bound under another name is not found (`C83_renamed`).
* C84: `nestedcode` collects code objects in a set, and code objects compare equal (before Python 3.11.2 even at different columns of a line): functions made from the second of two equal ones are missing (`C84_equal_code_missed`).
* C85: `_closuredimport` takes the last line that looks like `x = outer(`: with two closures of one factory the import of the wrong one is returned (`C85_wrong_closure`); comments (`C85_comment`), comparisons on the line (`C85_comparison`), names that begin alike (`C85_prefix`) and decorated helpers (`C85_decorated_helper`) mislead it too.
* C09: unpickling a standard stream that was closed closes the standard stream of the loading process; a file named `<stdout>` comes back as the standard stream.
* C87: a handle without a path is pickled by its descriptor number; loading attaches to, closes (if the handle was closed) or, with FILE_FMODE, overwrites and closes whatever file has that number in the loading process; with FILE_FMODE pickling closes the handle's own descriptor.
* C88: `is_dill(pickler, child=False)` looks for 'dill' in the name of the module of the pickler's class: a subclass of dill.Pickler defined in user code copies the namespace of its main module instead of referring to it, and any pickle._Pickler subclass from a module like `armadillo` raises AttributeError on every dict.
* C90: the first pickle of an instance of an ndarray subclass registers a save function for good, so a `__reduce__` given to the class later is ignored; a copyreg reducer for such a class is ignored; attributes set by `__array_finalize__` and deleted come back; the dtype branch is dead code.
* C91: getimport(A.f) for a method imports the module's global `f` if there is one (verified), likewise a nested class; the string '<b>' gives 'str'; the string 'nan' gives numpy's nan; Decimal('NaN') gives the failing 'from numpy import Decimal'; SimpleNamespace instances give the failing 'from types import namespace'; a lambda argument with a default gives text that is no Python; types.FunctionType gives the unbound name 'function'.
* C92: _importable(100), with its defaults, is 'from builtins import 100'.
* C93: only `co_code` is compared, so a later lambda that differs in a constant is taken for the earlier one; a line whose text does not compile on its own is compared as a constant function, and is taken for every constant lambda; closures are never found except on lines with two lambdas, and raise TypeError when an indented line mentions their names; a later line with the word lambda and no colon makes every search raise ValueError.
* C94: class keywords are not saved and hooks run again on the finished dictionary: `class A(Base, tag='x')` loads with the hook's default tag, a registry made by `__init_subclass__` loads empty, a hook with a required keyword makes the load raise TypeError; every enumeration saved by value fails to load (AttributeError: 'dict' object has no attribute '_member_names').
* C95: `_wrap` executes the text in the namespace of dill.source and calls its global `_`: two threads calling two wrapped functions can both call the second; a text that defines a function named like one of dill.source's own (indent, getsource, ...) replaces dill's function.
* C96: a module that takes part in a circular import is memorised half made (when the nested import returns) and not again: has_changed(module) is True right after the import although nobody changed it.
* C97: on CPython (up to 3.13) release_gone never releases anything: the list of items, the loop variable, the argument and id_to_obj already make the 4 references it asks for; on PyPy, without getrefcount, it forgets everything, also what was just memorised at import; and where something is released its id may be reused, which hides a rebound attribute (C97_number_reused).
* C98: with refimported=True the loop runs over the live namespace: assignments by other threads tear the state that is saved (C98_ref_torn), a new name makes the call fail with RuntimeError (C98_ref_raises), and a deletion followed by an insertion that resizes the table silently loses a name that was there all the time (C98_ref_name_lost).
* C99: save_super reads obj.__self__ and obj.__thisclass__ by ordinary attribute access, which on a super object searches the base classes first: if a base class defines __self__ (or __thisclass__), another object is written, and loading fails with TypeError or gives a proxy for another object (C99_shadowed_self, C99_shadowed_self_other).
* C99: __self_class__ is not saved: if the instance's __class__ was reassigned after super() was called, the loaded proxy searches other classes (C99_class_changed) or cannot be loaded (C99_class_changed_fails).
* C53: BUILD looks `__setstate__` up on the module, so a module-level function of that name (in the module that is being restored) is called with the saved namespace instead of restoring it: nothing is restored, no exception (C53_setstate_hijacks). The same holds for load_module.
* C100: load_module_asdict swaps sys.modules[name] without a lock: of two overlapping calls for the same name the first may return an empty namespace, the second the first one's session, while the second one's session is loaded into the user's real module and sys.modules keeps the first call's temporary module — all without an exception (C100_overlap); or a call fails with ImportError (C100_overlap_fails).
* C101: capture is not safe with threads: two overlapping `with capture('stdout')` blocks leave sys.stdout bound to a dead buffer (C101_stdout_lost).
* C101: save_code wraps reading a code object in warnings.catch_warnings: functions dumped in two threads at the same time can leave DeprecationWarnings ignored for the whole process (C101_warnings_off, C101_filters_changed), and a filter another thread adds during a dump is dropped (C101_filter_of_program_lost).
* C101: two overlapping calls of pickles delete a filter of the program (C101_pickles_overlap).
* C102: FILE_FMODE opens the file with 'w' before writing: killed in between, both the old and the pickled contents are lost (C102_file_killed); a handle of mode 'wb' cannot be loaded and the attempt empties the file (C102_failed_load_empties).
* C102: _create_filehandle looks at the file and opens it later: a file that shrinks meanwhile gives a position beyond the end (C102_position_beyond_end), one that vanishes makes loads fail with FileNotFoundError although strictio is off (C102_vanished).
* C103 (limit): equal objects need not have equal pickles: a set iterated in another order gives another pickle (C103_set_order_matters), and with recurse=True the copied globals are in the order of a set of names, so one function has different pickles in different runs (C103_recurse_order_matters).
* C104: a list of 1000 items or more from whose front an item is removed during the dump loses an item that was in it from beginning to end, without an error (C104_list_torn, for every batch size); a dict whose keys are swapped for others likewise (C104_dict_torn); small containers are each written as of a moment but of different moments, so an object moved from one list to another may be in neither (C104_moment_differs); and a list that is appended to fast enough keeps the dump going for ever (C104_endless).
* C105: at protocols 0 to 2 the class FileNotFoundError (and 13 others) loads as OSError (C105_exception_replaced); everything in a module with the name of a Python 2 module, such as a user's `commands` or `Queue`, is looked up elsewhere (C105_user_module_lost); and dill writes module namespaces without the renaming that undoes this, so that a function of such a module, and of the standard library's `dbm`, silently runs with another module's globals (C105_wrong_namespace).
* C106: an instance that is in a set (or is a dict key) that can be reached from its own attributes is hashed before its attributes are there when the instance is dumped, and after when the set is dumped (C106_early_hash, C106_depends_on_root); with a frozenset it is too early either way (C106_frozenset). A __hash__ that reads attributes then raises AttributeError on load. Shared with pickle.
* C107: dump_module empties and rewrites the session file in place (no temporary file, no rename). A load_module that runs meanwhile and needs more than one read can load, without an error, a head of the old session joined to a tail of the new one (C107_torn_load); two dump_module calls at the same time can leave such a mixture, or a file with a gap of zeros, for good (C107_torn_file, C107_gap).
* C108: a bound method whose class is found by name and whose function is not (a method decorated without functools.wraps, a patched method) is loaded with a new copy of the function, while its object has the existing class: `copy.__func__ is not type(copy.__self__).m` (C108_function_apart).
* C110: a `dataclasses._FIELD_BASE` that is not one of the module's three is written as a name that does not exist, without a check: the pickle cannot be loaded (C110_marker_itself).
* C111: a tuple of k lists each of which holds the tuple is written with at least k² opcodes (C111_quadratic): a tuple on a cycle is started again from inside until its own memoisation. Inherited from the pickle module.
* C112: a list subclass instance that can be reached from its own class gets its items twice in every generation (C01_items_repeated), which C112_nothing_added_partial excludes.
* C113: up to protocol 3 a set that is among the constructor arguments of one of its elements cannot be pickled (RecursionError at every limit), though the default protocol pickles it.
* C114: undill shows only the first object of a file, and nothing after the first file that does not load; get_objgraph draws over a pickle whose name ends in .png; get_gprof overwrites and then removes a file called <type>.prof, and leaves it behind if the object cannot be pickled.
* C115: texts with a backslash, with three single quotes in a row or with a single quote at the end are not the same (or dill/__info__.py does not compile) once dill is installed.
* C06: an object whose module and name collide with the special names of `find_class` is replaced.
* C47: the line number may be that of an identical earlier decorated definition.

## Wrong programs

`seeded/mutate.py` applies an edit to one model definition in a scratch copy, rebuilds, and reports which `Cnn_` theorems
no longer check; `seeded/LOG.jsonl` has one line per experiment and names the theorems that were tightened.
