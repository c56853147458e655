{"id": "C01", "title": "loads(dumps(x)) is an isomorphic copy of the object graph", "statement": "If dill.dumps(x) succeeds, then dill.loads of the result succeeds and the loaded object graph has the same shape as x: every access path (item, dict entry, cell contents, closure, defaults, copied global, class attribute, instance attribute) leads to the same atom or the same kind of object, and two paths reach the same object in the copy exactly when they do in the original.", "quantifier": "every finite or cyclic object graph of tuples, lists, dicts, cells, functions, classes, instances and reduce-style objects, with any sharing, and every root", "why_tests_cant": "graphs are unbounded and cyclic; a test samples a handful of shapes, while sharing/cycle bugs depend on the order in which memoised and deferred parts are met", "anchors": ["dill/_dill.py:save_function", "dill/_dill.py:save_cell", "dill/_dill.py:_save_with_postproc", "dill/_dill.py:save_type", "dill/_dill.py:Pickler.save", "dill/_dill.py:dumps", "dill/_dill.py:loads"]}
{"id": "C02", "title": "dumps terminates when every cycle passes through something dill creates before it is filled, or notices", "statement": "If every reference cycle of x passes through a list, a dict, an instance's items or state, or a by-value function or class, then dill.dumps(x) never recurses forever: at any recursion limit above (N+1)^2 nested saves, N being the number of objects reachable, it gives the same answer (bytes, or another exception), and the answer is not 'recursion limit exceeded'.", "quantifier": "every finite object graph in which no cycle consists only of tuples, constructor arguments and cells", "why_tests_cant": "non-termination on one unlucky graph cannot be excluded by running finitely many graphs", "anchors": ["dill/_dill.py:save_function", "dill/_dill.py:save_cell", "dill/_dill.py:_save_with_postproc", "dill/_dill.py:Pickler.save"]}
{"id": "C03", "title": "no closure cell is left with a placeholder", "statement": "After loads(dumps(x)) every copied cell holds the copy of what the original cell held, and a cell that was empty is empty again, even when the cell's contents refer back to the function that owns the cell.", "quantifier": "every object graph, every cell in it, every nesting of functions and classes; whenever dumps returns", "why_tests_cant": "cells are filled by deferred steps attached to whichever object is outermost at that moment; the number of such schedules is unbounded", "anchors": ["dill/_dill.py:save_cell", "dill/_dill.py:_create_cell", "dill/_dill.py:_save_with_postproc", "dill/_shims.py:_delattr", "dill/_shims.py:_setattr"]}
{"id": "C04", "title": "copied globals are complete", "statement": "When a function is pickled with a copy of its globals (settings recurse=True, or a function whose globals are not a module's), then after loads the new function's __globals__ contains every entry of that copy, each bound to the copy of the original value, including entries that refer to the function itself or to objects still being pickled.", "quantifier": "every graph of functions and globals, mutually recursive or not; whenever dumps returns", "why_tests_cant": "the update of the globals dict is deferred to one of the enclosing objects chosen at run time, for unboundedly many nestings", "anchors": ["dill/_dill.py:save_function", "dill/_dill.py:_save_with_postproc", "dill/_dill.py:_setitems", "dill/_dill.py:_create_function"]}
{"id": "C05", "title": "every stream dumps writes is a well-formed program for loads", "statement": "A stream produced by dill.dumps never makes the unpickler underflow its stack, refer to a memo slot not yet filled, apply an operation to an object of the wrong kind, or finish with anything but exactly one value on an empty stack.", "quantifier": "every object graph for which dumps returns", "why_tests_cant": "stack discipline depends on every interleaving of deferred steps, POPs and recursive-tuple escapes", "anchors": ["dill/_dill.py:_save_with_postproc", "dill/_dill.py:save_cell", "dill/_dill.py:save_function", "dill/_dill.py:Pickler.dump"]}
{"id": "C06", "title": "objects pickled by reference come back as the very same object", "statement": "When dill stores a function or class by module and qualified name, loading in an unchanged interpreter returns the identical object; if the name does not lead back to that object, dumps does not silently store the name but raises PicklingError or pickles by value.", "quantifier": "every module table, attribute hierarchy, qualified name and object", "why_tests_cant": "name resolution ranges over arbitrary module tables and nested qualified names, shadowing and renaming included", "anchors": ["dill/_dill.py:_locate_function", "dill/_dill.py:_getattribute", "dill/_dill.py:_import_module", "dill/_dill.py:Unpickler.find_class", "dill/_dill.py:save_function", "dill/_dill.py:save_type"]}
{"id": "C07", "title": "code objects survive a round trip on the same Python version", "statement": "For each code-object layout dill knows (3.7, 3.8/3.9, 3.10, PyPy 3.11, 3.11+, 3.11 alpha) pickling and unpickling a code object on that version yields a code object all of whose constructor fields equal the original's.", "quantifier": "every code object and every one of the six layouts", "why_tests_cant": "field permutation bugs only show for particular field values; only one interpreter version is available to a test run", "anchors": ["dill/_dill.py:save_code", "dill/_dill.py:_create_code", "dill/_dill.py:match", "dill/_dill.py:ALL_CODE_PARAMS"]}
{"id": "C08", "title": "code objects pickled on one Python version load on every other", "statement": "A code object pickled under any of the six layouts can be unpickled under any other; every field both layouts have is preserved, and fields the writer lacked get their documented defaults (posonlyargcount 0, qualname = name, empty tables).", "quantifier": "every pair of layouts, every code object", "why_tests_cant": "needs all pairs of interpreter versions, which no single test run has", "anchors": ["dill/_dill.py:save_code", "dill/_dill.py:_create_code", "dill/_dill.py:ENCODE_PARAMS"]}
{"id": "C09", "title": "HANDLE_FMODE never touches the position and re-opens by name and mode", "statement": "With fmode=HANDLE_FMODE an unpickled handle is a handle on the same name in the same mode, positioned as a freshly opened one (a missing file is created, or replaced by a temporary file for reading); with read modes the contents of the file system are unchanged. A standard stream comes back as the standard stream of the loading process, which stays as it is.", "quantifier": "every file system state, name, mode, pickled position and closed flag", "why_tests_cant": "the behaviour depends on the file system found at load time, which ranges over all contents and lengths", "anchors": ["dill/_dill.py:_create_filehandle", "dill/_dill.py:_save_file"]}
{"id": "C10", "title": "CONTENTS_FMODE positions at min(pickled position, EOF) and never truncates", "statement": "With fmode=CONTENTS_FMODE an unpickled open handle has position min(pickled position, current file length), and loading never truncates or alters the contents of an existing file, even for 'w' and 'x' modes; a missing file opened for writing is created.", "quantifier": "every file system state, mode, pickled position", "why_tests_cant": "ranges over all pairs of saved position and length of the file at load time", "anchors": ["dill/_dill.py:_create_filehandle", "dill/_dill.py:_save_file"]}
{"id": "C11", "title": "FILE_FMODE restores contents, mode and position", "statement": "With fmode=FILE_FMODE the file's contents at dump time are restored on load whatever the file system holds, and an open handle comes back with the same mode and position.", "quantifier": "every contents, mode, position and every file system at load time", "why_tests_cant": "all contents and all modes", "anchors": ["dill/_dill.py:_create_filehandle", "dill/_dill.py:_save_file"]}
{"id": "C12", "title": "dump_module never writes through a symlink, whatever happens concurrently", "statement": "On a platform with O_NOFOLLOW, dump_module(path) either fails or writes to the regular file at path; it never creates, truncates or writes the target of a symlink placed at path, even if an attacker changes the directory between any two system calls.", "quantifier": "every initial directory and every attacker action at every point between system calls", "why_tests_cant": "a race has unboundedly many schedules; a test can stage only one swap at one chosen point", "anchors": ["dill/session.py:_safe_open_for_writing", "dill/session.py:_check_symlink", "dill/session.py:dump_module"]}
{"id": "C13", "title": "load_module never reads through a symlink, whatever happens concurrently", "statement": "On a platform with O_NOFOLLOW, load_module(path) and load_module_asdict(path) either fail or read the regular file at path, never the target of a symlink, for every concurrent modification of the directory.", "quantifier": "every initial directory and every attacker action at every point between system calls", "why_tests_cant": "a race has unboundedly many schedules", "anchors": ["dill/session.py:_safe_open_for_reading", "dill/session.py:_check_symlink", "dill/session.py:load_module", "dill/session.py:load_module_asdict"]}
{"id": "C14", "title": "dump_module(refimported=True) followed by load_module restores every name", "statement": "Splitting a module's namespace into objects saved by value and imported objects saved by reference loses nothing: after restoring in an interpreter with the same modules, every name of the module is bound to the original imported object, or to the value that was saved, and no bookkeeping name remains.", "quantifier": "every module namespace and every table of imported modules", "why_tests_cant": "the split depends on identity matches against the namespaces of all imported modules", "anchors": ["dill/session.py:_stash_modules", "dill/session.py:_restore_modules", "dill/session.py:_lookup_module", "dill/session.py:_module_map"]}
{"id": "C15", "title": "load_module refuses a module of another name or kind", "statement": "load_module(file, module) raises ValueError whenever the saved module's name or kind (imported or runtime) differs from the target's, and in that case no module is modified.", "quantifier": "every saved name and kind, every target module, every module table", "why_tests_cant": "all combinations of kinds, names and module tables", "anchors": ["dill/session.py:load_module", "dill/session.py:_identify_module"]}
{"id": "C16", "title": "load_module leaves no trace in sys.modules", "statement": "After load_module returns or raises - at whatever point the unpickling fails - sys.modules has no '__runtime__.' entry it did not have before, and all other entries are as the unpickled stream left them.", "quantifier": "every module table, every failure point of the load", "why_tests_cant": "crash points are unbounded", "anchors": ["dill/session.py:load_module"]}
{"id": "C17", "title": "load_module_asdict restores sys.modules and does not alter the original module", "statement": "load_module_asdict returns the saved namespace as a dict and leaves both sys.modules and the original module unchanged, whether it succeeds or fails at any point.", "quantifier": "every module table, module name (top-level, dotted, runtime), update flag and failure point", "why_tests_cant": "crash points and module names are unbounded", "anchors": ["dill/session.py:load_module_asdict", "dill/session.py:load_module", "dill/_dill.py:_import_module"]}
{"id": "C18", "title": "the module stored in a session file is identified from its head", "statement": "For a file written by dump_module for a module named n, the peeked head of the file identifies n, for every pickle protocol, as long as the name fits in the peeked chunk; and a chunk that ends before the name is reported as an UnpicklingError rather than as a wrong name.", "quantifier": "every module name, protocol, and file contents after the header", "why_tests_cant": "byte-level parsing must hold for every name and every truncation point", "anchors": ["dill/session.py:_identify_module", "dill/session.py:_PeekableReader", "dill/session.py:_make_peekable"]}
{"id": "C19", "title": "peeking does not consume the stream", "statement": "Wrapping a seekable stream so that load_module can peek leaves the stream at the same position with the same remaining bytes; a stream that cannot seek is reported, never silently advanced.", "quantifier": "every stream contents, position and peek length", "why_tests_cant": "all positions and lengths", "anchors": ["dill/session.py:_PeekableReader", "dill/session.py:_make_peekable"]}
{"id": "C20", "title": "extend(False) undoes extend(True)", "statement": "dill.extend() makes every dill-registered type available to pickle and dill.extend(False) restores pickle's dispatch table to what it was, after any sequence of extend calls; both are idempotent.", "quantifier": "every sequence of extend/register calls", "why_tests_cant": "histories of calls are unbounded", "anchors": ["dill/_dill.py:_extend", "dill/_dill.py:_revert_extension", "dill/__init__.py:extend"]}
{"id": "C21", "title": "register and pickle: the last registration wins and nothing else changes", "statement": "After any sequence of dill.register/dill.pickle calls the save function used for a type is the most recently registered one for that type; types never registered keep the default; unregistered metaclasses fall back to saving classes as types.", "quantifier": "every sequence of registrations and every type", "why_tests_cant": "histories are unbounded", "anchors": ["dill/_dill.py:register", "dill/_dill.py:pickle", "dill/_dill.py:MetaCatchingDict"]}
{"id": "C22", "title": "parents/children return a genuine shortest reference chain", "statement": "dill.detect.parents/children (find_chain) return a chain whose consecutive members are linked by references, that joins the given object to an object of the requested type, no longer than the requested depth, and no shorter such chain exists; if none exists within the depth, the chain is just the object.", "quantifier": "every finite reference graph, predicate, depth and ignore set", "why_tests_cant": "breadth-first search correctness over all graphs", "anchors": ["dill/pointers.py:find_chain", "dill/pointers.py:parents", "dill/pointers.py:children"]}
{"id": "C23", "title": "nestedcode finds all nested code objects, and only those", "statement": "dill.detect.nestedcode(f) returns exactly the code objects reachable through constants of f's code, without duplicates; with recurse=False exactly the directly nested ones.", "quantifier": "every nesting of code objects of any depth", "why_tests_cant": "nesting depth and width are unbounded", "anchors": ["dill/detect.py:nestedcode", "dill/detect.py:code"]}
{"id": "C24", "title": "nestedglobals finds all global names used, at every nesting depth", "statement": "dill.detect.nestedglobals(f) returns exactly the names used by global-variable instructions in f or in any code nested in it (any depth), without duplicates; with recurse=False only f's own.", "quantifier": "every code object", "why_tests_cant": "nesting depth and instruction sequences are unbounded", "anchors": ["dill/detect.py:nestedglobals"]}
{"id": "C25", "title": "globalvars covers everything the function needs, when it terminates", "statement": "dill.detect.globalvars(f, recurse=True) contains every global name that f refers to and that f's globals define, and, transitively, the names needed by the functions those names are bound to; every entry is bound to the object f's globals bind it to; names not defined are omitted.", "quantifier": "every call graph of functions over a global namespace", "why_tests_cant": "the transitive closure ranges over arbitrary call graphs", "anchors": ["dill/detect.py:globalvars", "dill/detect.py:referredglobals"]}
{"id": "C26", "title": "globalvars terminates", "statement": "dill.detect.globalvars and hence dumps(recurse=True) terminate for every function, including functions that call each other.", "quantifier": "every call graph", "why_tests_cant": "non-termination cannot be observed by a finite run", "anchors": ["dill/detect.py:globalvars"]}
{"id": "C27", "title": "freevars returns exactly the bound free variables", "statement": "dill.detect.freevars(f) maps exactly the free-variable names of f whose cells are filled to the objects in those cells.", "quantifier": "every function, any number of cells, any subset empty", "why_tests_cant": "all subsets of empty cells", "anchors": ["dill/detect.py:freevars"]}
{"id": "C28", "title": "pickles(safe=True) never raises and pickles has no lasting effect on warning filters", "statement": "dill.pickles(obj, safe=True) returns a boolean for every object whose dump, load or comparison raises an ordinary exception; and whatever it returns, the warnings filters are as before the call.", "quantifier": "every outcome of copy, comparison and conversion and every prior filter list", "why_tests_cant": "every combination of raising steps and prior filters", "anchors": ["dill/_dill.py:pickles", "dill/_dill.py:copy"]}
{"id": "C29", "title": "pickles(exact=True) is stricter than pickles()", "statement": "If dill.pickles(obj, exact=True) is True then dill.pickles(obj) is True, and pickles(obj, safe=False) True implies pickles(obj, safe=True) True.", "quantifier": "every outcome of copy and comparison", "why_tests_cant": "relates all outcomes of user-defined comparisons", "anchors": ["dill/_dill.py:pickles"]}
{"id": "C30", "title": "baditems, badobjects, badtypes and errors agree with pickles", "statement": "badobjects(x)/badtypes(x)/errors(x) at depth 0 return None exactly when x pickles; at depth n they report exactly the attributes that fail, recursively; baditems(xs) lists only failing items and for each failing item lists it or an item equal to it.", "quantifier": "every object tree, depth, list of items", "why_tests_cant": "all depths and all item lists", "anchors": ["dill/detect.py:baditems", "dill/detect.py:badobjects", "dill/detect.py:badtypes", "dill/detect.py:errors"]}
{"id": "C31", "title": "the trace is a well-nested tree", "statement": "With tracing on, whatever objects are pickled, every '# X' line closes the most recent open line at the same depth, depth never goes below 1, returns to 1 after a completed dump, and every closing line reports the number of bytes written since its opening line (so a parent's size is at least the sum of its children's).", "quantifier": "every sequence of nested save calls and byte counts", "why_tests_cant": "nesting is unbounded", "anchors": ["dill/logger.py:TraceAdapter", "dill/logger.py:TraceFormatter"]}
{"id": "C32", "title": "sizes in the trace use the right unit", "statement": "The size shown in a trace line is the number of bytes divided by 1024^p with p-th unit (B, KiB, MiB, ...), for every size.", "quantifier": "every size", "why_tests_cant": "all sizes", "anchors": ["dill/logger.py:TraceFormatter.format"]}
{"id": "C33", "title": "detect.trace() as a context manager restores the logging state", "statement": "Leaving a 'with detect.trace(...)' block restores the log level and the set of handlers that were active on entry, for any nesting of blocks and whether or not the block raises.", "quantifier": "every nesting of blocks, redirected or not", "why_tests_cant": "unbounded nestings", "anchors": ["dill/logger.py:TraceManager", "dill/logger.py:trace"]}
{"id": "C34", "title": "temp.capture always gives the stream back", "statement": "After a 'with capture(name)' block exits, normally or by an exception, sys.<name> is the object it was before, for any nesting; output written inside goes only to the innermost capture.", "quantifier": "every program of nested captures, writes and raises", "why_tests_cant": "unbounded nestings and exit points", "anchors": ["dill/temp.py:capture"]}
{"id": "C35", "title": "load_source finds the name dump_source stored", "statement": "For every object source text and every name without whitespace, the name recovered by load_source/loadIO_source from what dump_source/dumpIO_source wrote is that name.", "quantifier": "every source text and name", "why_tests_cant": "all texts", "anchors": ["dill/temp.py:dump_source", "dill/temp.py:load_source", "dill/temp.py:loadIO_source", "dill/temp.py:dumpIO_source"]}
{"id": "C36", "title": "indent and outdent shift code without damaging it", "statement": "source.indent(code, n) prefixes lines by n spaces and source.outdent removes at most the leading whitespace, so that outdent(indent(code, n), n) gives the code back and outdent never deletes a non-blank character.", "quantifier": "every text, every number of spaces", "why_tests_cant": "all texts, blank lines, tabs, mixed indentation", "anchors": ["dill/source.py:indent", "dill/source.py:outdent", "dill/source.py:_outdent"]}
{"id": "C37", "title": "has_changed detects exactly the changes since memorise", "statement": "In dill's object-diff module, after memorise(obj), has_changed(obj) is true exactly when some object reachable from obj through attributes or items has gained, lost or been rebound an attribute or item since, for cyclic graphs too.", "quantifier": "every object graph, cyclic or not, and every mutation of it", "why_tests_cant": "reachability over arbitrary cyclic graphs with a cache of provisional answers", "anchors": ["dill/__diff.py:whats_changed", "dill/__diff.py:has_changed"]}
{"id": "C38", "title": "memorise records every reachable object", "statement": "In dill's object-diff module, memorise(obj) on an empty memo records exactly the objects reachable from obj (not passing through excluded ones), each with its current attributes and items, and terminates on cyclic graphs; a second memorise without force changes nothing.", "quantifier": "every object graph", "why_tests_cant": "arbitrary cyclic graphs", "anchors": ["dill/__diff.py:memorise"]}
{"id": "C39", "title": "a class pickled by value resolves attributes as the original does", "statement": "A class re-created by loads(dumps(cls)) has, for every attribute name, the same attribute lookup result as the original class (up to copying).", "quantifier": "every class hierarchy and attribute name", "why_tests_cant": "all hierarchies and overriding patterns", "anchors": ["dill/_dill.py:_get_typedict_type", "dill/_dill.py:save_type"]}
{"id": "C40", "title": "namedtuple classes keep their fields and defaults", "statement": "A namedtuple class re-created by loads(dumps(cls)) has the same field names in order and the same default for each field that has one, and no other defaults.", "quantifier": "every list of fields and every number of defaults", "why_tests_cant": "all numbers of fields and defaults", "anchors": ["dill/_dill.py:save_type", "dill/_dill.py:_create_namedtuple"]}
{"id": "C41", "title": "function attributes survive a round trip", "statement": "A function pickled by value comes back with the same __name__, __qualname__, __module__, __doc__, __defaults__, __kwdefaults__, __annotations__, __dict__ and code.", "quantifier": "every assignment of those attributes", "why_tests_cant": "all combinations of attribute values and code-object defaults", "anchors": ["dill/_dill.py:save_function", "dill/_dill.py:_create_function"]}
{"id": "C42", "title": "explicit arguments override settings, settings override nothing else", "statement": "For dump/dumps/copy/load/loads every option (protocol, byref, fmode, recurse, ignore) takes the explicitly passed value when given and otherwise the value in dill.settings at the time of the call; no call changes dill.settings.", "quantifier": "every settings table and every combination of arguments, every sequence of calls", "why_tests_cant": "all combinations and histories", "anchors": ["dill/_dill.py:dump", "dill/_dill.py:dumps", "dill/_dill.py:load", "dill/_dill.py:loads", "dill/_dill.py:copy", "dill/_dill.py:Pickler.__init__", "dill/_dill.py:Unpickler.__init__"]}
{"id": "C43", "title": "ignore=False re-points instances of __main__ classes, ignore=True does not", "statement": "loads(s, ignore=False) gives an object whose class is defined in __main__ the class of that name currently in __main__ when there is one that is assignable, and otherwise leaves it; with ignore=True, and for objects of other modules, the class is the one in the pickle.", "quantifier": "every loaded object and every content of __main__", "why_tests_cant": "all contents of __main__", "anchors": ["dill/_dill.py:Unpickler.load"]}
{"id": "C44", "title": "locks keep their state", "statement": "A copied Lock is locked exactly when the original was; a copied RLock is in the same state (free, or held with the same count by the same owner) and a free one can be acquired.", "quantifier": "every lock state", "why_tests_cant": "all counts and owners, and the repr they are parsed from", "anchors": ["dill/_dill.py:save_lock", "dill/_dill.py:_create_lock", "dill/_dill.py:save_rlock", "dill/_dill.py:_create_rlock"]}
{"id": "C45", "title": "weak references: live stay live, dead stay dead", "statement": "A copied weak reference or proxy to a live object refers to the copy of it when that copy is otherwise kept alive, and a copied dead reference is dead.", "quantifier": "every referent state", "why_tests_cant": "liveness after load depends on what else the graph holds", "anchors": ["dill/_dill.py:save_weakref", "dill/_dill.py:_create_weakref", "dill/_dill.py:save_weakproxy", "dill/_dill.py:_create_weakproxy"]}
{"id": "C46", "title": "dictionary views keep their contents and order", "statement": "A copied keys/values/items view of a dict has the same sequence of elements as the original view, under both of dill's strategies; where the mapping itself is pickled the copy is a view of the copied mapping.", "quantifier": "every dict", "why_tests_cant": "all dicts, including equal values and any order", "anchors": ["dill/_dill.py:save_dict_view"]}
{"id": "C47", "title": "source extraction terminates and returns a block that starts at the definition", "statement": "The search for enclosing code blocks in dill.source terminates for every source text and every block-reading behaviour, and the last block it returns contains the object's own source block.", "quantifier": "every list of lines and every block reader that returns non-empty blocks", "why_tests_cant": "termination for every text", "anchors": ["dill/source.py:getblocks", "dill/source.py:getsourcelines"]}
{"id": "C48", "title": "import strings name the requested object", "statement": "source.getimport/_getimport build either '[alias = ]tail' for builtins or 'from head import tail[ as alias]' / 'import tail[ as alias]', binding exactly the alias when one is given and it differs from the name.", "quantifier": "every head, tail and alias", "why_tests_cant": "all strings", "anchors": ["dill/source.py:_getimport"]}
{"id": "C49", "title": "compatibility shims resolve to the module attribute when present, else to the default", "statement": "An object stored as a Getattr/Reduce shim is, on load, the named attribute of the module when it exists there and the default otherwise; calling a callable shim before pickling gives the same result as calling what it loads to.", "quantifier": "every module content, name and default", "why_tests_cant": "ranges over versions of dill that do and do not define the attribute", "anchors": ["dill/_shims.py:Reduce", "dill/_shims.py:Getattr", "dill/_shims.py:register_shim"]}
{"id": "C50", "title": "verified import strings work", "statement": "An import string returned by source.getimport/_getimport with verify=True has been executed without ImportError (or needs no import); when no enclosing package provides the name, the call raises instead of returning a string.", "quantifier": "every head, tail, alias and every behaviour of the import system", "why_tests_cant": "ranges over all module layouts and which imports fail", "anchors": ["dill/source.py:_getimport"]}
{"id": "C51", "title": "whats_changed lists exactly what changed", "statement": "In dill's object-diff module, after memorise, whats_changed(obj) lists an attribute, with its present value or None if it was lost, exactly when it was gained, lost or rebound or an object reachable from its value changed, and flags the items exactly when they differ or an object reachable from one of them changed.", "quantifier": "every object graph, cyclic or not, every history of memorise calls and mutations", "why_tests_cant": "reachability over arbitrary cyclic graphs with a cache of provisional answers", "anchors": ["dill/__diff.py:whats_changed", "dill/__diff.py:memorise"]}
{"id": "C52", "title": "unpickling a module returns that module", "statement": "loads(dumps(module)) in the interpreter that dumped it returns the same module object, and leaves every name of every namespace as it was.", "quantifier": "every module object (imported, submodule, made at run time), every interpreter state", "why_tests_cant": "ranges over all module layouts and name clashes", "anchors": ["dill/_dill.py:save_module", "dill/_dill.py:_import_module"]}
{"id": "C53", "title": "loading a module overlays exactly the saved names", "statement": "Loading the pickle of a module saved with its contents, in any interpreter where the name is imported, sets every saved name to the loaded value and changes no other name, no other namespace and not sys.modules; __builtins__, __loader__ and IPython's helpers are not saved. Loading a module saved by name changes nothing.", "quantifier": "every module, every receiving interpreter", "why_tests_cant": "all namespaces on both sides", "anchors": ["dill/_dill.py:save_module", "dill/_dill.py:_is_imported_module"]}
{"id": "C54", "title": "a module's contents are saved exactly when it is not part of the Python installation", "statement": "For a module with a file, other than the main module, builtins and dill itself, dumps stores its contents if and only if its file is not in an installation directory, not in site-packages and not an extension module.", "quantifier": "every path, every installation layout", "why_tests_cant": "all paths and prefixes", "anchors": ["dill/_dill.py:_is_builtin_module", "dill/_dill.py:save_module"]}
{"id": "C55", "title": "a dict is pickled as a reference only if it is that namespace", "statement": "A dict that is a module's namespace is loaded as that same namespace; every other dict is loaded as a new dict.", "quantifier": "every dict, every main module and interpreter state", "why_tests_cant": "all dicts, including those equal to a namespace", "anchors": ["dill/_dill.py:save_module_dict", "dill/_dill.py:Unpickler.find_class"]}
{"id": "C56", "title": "pickling a dict has no side effects", "statement": "Pickling a dict of plain values does not import modules, does not change the interpreter and does not raise, whatever its keys and values are.", "quantifier": "every dict", "why_tests_cant": "all dicts, all import systems", "anchors": ["dill/_dill.py:save_module_dict", "dill/_dill.py:_import_module"]}
{"id": "C57", "title": "ranges, Ellipsis and NotImplemented come back equal", "statement": "loads(dumps(x)) equals x for every range object, Ellipsis and NotImplemented.", "quantifier": "every start, stop and step, every limit on integer/text conversion", "why_tests_cant": "all integers", "anchors": ["dill/_dill.py:save_singleton", "dill/_dill.py:_eval_repr"]}
{"id": "C58", "title": "a copied lru_cache keeps its parameters", "statement": "The copy of an lru_cache wrapper wraps the same function with the same maxsize and typed flag, and starts empty.", "quantifier": "every maxsize (including None), typed flag and Python version", "why_tests_cant": "all parameters and versions", "anchors": ["dill/_dill.py:save_lru_cache"]}
{"id": "C59", "title": "capsules resolve to the capsule their name denotes", "statement": "Unpickling a PyCapsule returns the existing capsule its dotted name denotes, if there is one; an object returned from a module is always a valid capsule of that name; otherwise the new capsule has the pickled pointer, name, context and destructor.", "quantifier": "every dotted name and every content of the modules", "why_tests_cant": "all names, depths and module contents", "anchors": ["dill/_dill.py:_create_capsule", "dill/_dill.py:save_capsule"]}
{"id": "C60", "title": "method and slot descriptors load as themselves", "statement": "Unpickling a method, member, attribute or slot-wrapper descriptor of a class returns that class's descriptor.", "quantifier": "every class, descriptor name and content of dill's namespace", "why_tests_cant": "all class and attribute names", "anchors": ["dill/_dill.py:_getattr", "dill/_dill.py:save_wrapper_descriptor"]}
{"id": "C61", "title": "properties, staticmethods and classmethods are copied faithfully", "statement": "The copy of a property has the same functions and doc string and derives the same properties with .getter; the copy of a staticmethod or classmethod has the same type, function and attributes.", "quantifier": "every property, staticmethod and classmethod object", "why_tests_cant": "all combinations of functions, doc strings and attributes", "anchors": ["dill/_dill.py:save_property", "dill/_dill.py:save_classmethod"]}
{"id": "C62", "title": "typing.Tuple aliases keep their meaning across versions", "statement": "A typing.Tuple[...] alias pickled under one Python version and loaded under another is the alias with the same arguments; in particular Tuple[()] stays Tuple[()].", "quantifier": "every argument list, every pair of versions", "why_tests_cant": "all argument lists and version pairs", "anchors": ["dill/_dill.py:save_generic_alias", "dill/_dill.py:_create_typing_tuple"]}
{"id": "C63", "title": "getsource(obj, alias) yields text that binds the alias", "statement": "For every object with source, running the text getsource(obj, alias=A) returns binds A to the object: the source is kept, and A is bound by an added last line or by a prefix of the defining line.", "quantifier": "every object, alias and source text", "why_tests_cant": "all source texts: decorators, lambdas, coroutine functions, renamed functions", "anchors": ["dill/source.py:getsource"]}
{"id": "C64", "title": "getsource(instance, force=True) imports the class of the instance", "statement": "For an instance whose own source cannot be found, getsource(force=True) evaluates the import of its class from its module, whatever the class is called.", "quantifier": "every class name and module name", "why_tests_cant": "all names, including names made of the characters of __import__", "anchors": ["dill/source.py:getsource"]}
{"id": "C65", "title": "importable falls back without changing the object", "statement": "importable(obj) returns an import text or a source text of obj; when the first way fails the other is used, for the same object; source=False, source=True, source=None and builtin pick which way comes first.", "quantifier": "every object, every success or failure of the two ways, every option combination", "why_tests_cant": "every combination of failures of the helpers", "anchors": ["dill/source.py:importable"]}
{"id": "C66", "title": "dumpsource(new=True) rebuilds the instance in the module that runs the text", "statement": "The text dumpsource(obj, new=True, enclose=False) writes loads, in any module, an instance of the new class with the state of obj.", "quantifier": "every pickle, old and new module name", "why_tests_cant": "all module names and all pickles", "anchors": ["dill/source.py:dumpsource"]}
{"id": "C67", "title": "dumpsource text has exactly the documented shape", "statement": "dumpsource(obj, alias) is a program that loads exactly the pickle of obj inside one enclosing function, binds the result to the alias and deletes the function; with enclose=False the pickle is loaded at top level.", "quantifier": "every pickle text and alias", "why_tests_cant": "all pickle texts (which may contain any characters) and aliases", "anchors": ["dill/source.py:dumpsource", "dill/source.py:_enclose", "dill/source.py:indent"]}
{"id": "C68", "title": "Several pickles in one file load back in order", "statement": "Objects written one after the other with dump(obj, file) are returned in the same order by that many calls load(file), each a faithful copy, and the file is left exactly after the last pickle, whatever follows.", "quantifier": "every number of objects, every object graph, every rest of the file", "why_tests_cant": "all sequences of object graphs and all trailing bytes", "anchors": ["dill/_dill.py:dump", "dill/_dill.py:load", "dill/_dill.py:Pickler", "dill/_dill.py:Unpickler"]}
{"id": "C69", "title": "A truncated pickle never loads", "statement": "If a pickle is cut at any byte (a crash or a full disk during dump), load of what is left raises instead of returning an object; the pickles before it in the same file still load.", "quantifier": "every object graph and every cut point", "why_tests_cant": "every crash point of every pickle", "anchors": ["dill/_dill.py:load", "dill/_dill.py:loads", "dill/_dill.py:Unpickler"]}
{"id": "C70", "title": "A failed dump_module keeps the previous session file", "statement": "If dump_module(path) raises, the session file that was at path is still there, with its old contents.", "quantifier": "every module, every argument combination, every place where pickling can fail", "why_tests_cant": "every failing object at every position of every module", "anchors": ["dill/session.py:dump_module", "dill/session.py:_safe_open_for_writing"]}
{"id": "C71", "title": "dump_module closes what it opens and nothing else, and writes only where told", "statement": "Whatever its arguments and however it ends, dump_module leaves no descriptor open, never closes a stream given by the caller and only appends to it, and changes no file other than the named one.", "quantifier": "every argument combination, environment and outcome", "why_tests_cant": "all failure points and argument combinations", "anchors": ["dill/session.py:dump_module"]}
{"id": "C72", "title": "dump_module arguments and settings", "statement": "dump_module dumps the requested module (None: __main__, a name: the imported module) at the protocol of dill.settings with byref and recurse off, whatever dill.settings or keywords say about them; the old argument names main and byref do what module and refimported do, and giving both names is a TypeError raised before anything is touched.", "quantifier": "every argument combination and settings table", "why_tests_cant": "all combinations", "anchors": ["dill/session.py:dump_module", "dill/session.py:dump_session", "dill/_dill.py:Pickler.__init__"]}
{"id": "C73", "title": "check() loads exactly the pickle in exactly the interpreter asked for", "statement": "dill.check(obj, python=P, **kw) starts one process, of interpreter P, that passes to dill.loads exactly the bytes dumps(obj, **kw) returned, reports SUCCESS exactly when it ends with status 0, raises when the object cannot be dumped, and passes on every other keyword.", "quantifier": "every pickle (every sequence of bytes), every interpreter path, every keyword combination, every exit status", "why_tests_cant": "all byte sequences must survive being written as a literal into a command line", "anchors": ["dill/_dill.py:check"]}
{"id": "C74", "title": "temp.dump and temp.load round trip for as long as the handle is kept", "statement": "After file = temp.dump(obj), temp.load(file) and temp.load(file.name) return what loads(dumps(obj)) returns, as long as the handle is open, whatever happens to other files; closing it removes the file unless delete=False; a failed dump leaves no file. dumpIO and loadIO do the same in memory.", "quantifier": "every object, every buffering of the writes, every sequence of other file system events", "why_tests_cant": "all buffer sizes and all interleavings with other temporary files", "anchors": ["dill/temp.py:dump", "dill/temp.py:load", "dill/temp.py:dumpIO", "dill/temp.py:loadIO"]}
{"id": "C75", "title": "a loaded function runs in the live namespace of its module", "statement": "A function pickled by value, without recurse, whose globals are the namespace of an importable module has after loading the live namespace of that module as its globals; functions of a restored session get the restored namespace; functions that share globals still share them.", "quantifier": "every function, interpreter state, pickler settings, loading process", "why_tests_cant": "all import states of two processes and all pickler settings", "anchors": ["dill/_dill.py:save_function", "dill/_dill.py:save_module_dict", "dill/_dill.py:_import_module", "dill/_dill.py:_create_function"]}
{"id": "C76", "title": "one Pickler for several dumps, one Unpickler for several loads", "statement": "Objects dumped in turn with one dill.Pickler and loaded in turn with one dill.Unpickler come back as copies, and objects shared between different dumps are shared between the copies. After clear_memo() a Pickler writes what a new one would write.", "quantifier": "every object graph, every sequence of dumps and clear_memo calls, also with dumps that raise", "why_tests_cant": "histories of any length over all graphs", "anchors": ["dill/_dill.py:Pickler.__init__", "dill/_dill.py:Pickler.dump", "dill/_dill.py:_save_with_postproc", "dill/_dill.py:Unpickler.load"]}
{"id": "C77", "title": "copied abstract base classes accept the copies of what their originals accept", "statement": "When a graph with abstract base classes and classes registered with them is dumped by value and loaded, every class registered with an ABC is a virtual subclass of the copy of that ABC, and issubclass answers for two copies what it answers for their originals; loading does not raise.", "quantifier": "every history of class creations and registrations, every set of classes pickled by value, every order in which the deferred registrations run", "why_tests_cant": "registries are sets without a fixed order; hierarchies and registration histories of any shape", "anchors": ["dill/_dill.py:_get_typedict_abc", "dill/_dill.py:save_type", "dill/_dill.py:_save_with_postproc"]}
{"id": "C78", "title": "load_types offers exactly the documented types", "statement": "After dill.load_types(pickleable, unpickleable) the registry dill.types has, for every registered object name, the type of the object if and only if it is pickleable and pickleable=True, or unpickleable and unpickleable=True; earlier calls do not matter; other attributes of dill.types stay.", "quantifier": "every registry, every history of calls, every name", "why_tests_cant": "all call histories", "anchors": ["dill/__init__.py:load_types", "dill/objtypes.py", "dill/_objects.py"]}
{"id": "C79", "title": "built-in types come back as themselves", "statement": "Every public class of builtins and of the module types that is a plain class of builtins, and every hand-built or incidental type, is pickled by a name, and loading that name in the same process gives the very same class, also when a class has several names or a name is in both modules; a user class is never pickled by such a name.", "quantifier": "all contents of builtins and types at import time, all classes", "why_tests_cant": "depends on the Python version's namespaces and their order", "anchors": ["dill/_dill.py:_create_typemap", "dill/_dill.py:_load_type", "dill/_dill.py:save_type"]}
{"id": "C80", "title": "dill.source finds the line where a definition starts", "statement": "findsource (and with it getsource) of a function, lambda or class gives the line on which its definition, or the first of its decorators, starts; when the source cannot be found it raises.", "quantifier": "every text of the file or history, every function, lambda, code object and class", "why_tests_cant": "any source text; names that are parts of others, several definitions of one name, mixed indentation", "anchors": ["dill/source.py:findsource"]}
{"id": "C81", "title": "A restored session is one graph, connected as the saved one", "statement": "After dump_module of a module and load_module of the result, the module's names, the parts of the objects they lead to and the global names seen by the module's functions (f.__globals__) are connected as before: every access path leads to the same atom or the same kind of object, and two paths meet in the restored session exactly when they met in the saved one; so main.x and the x a function of the module uses are one object. Names that were not saved, and __builtins__ and __loader__, keep the binding of the target session.", "quantifier": "every module namespace, every object graph below it, every path mixing attributes, items, cells, closures and global names, every previous content of the target session", "why_tests_cant": "Tests restore a few sessions and look at a few names; aliasing between globals of functions, names and containers must hold for all pairs of paths of any length.", "anchors": ["dill/session.py:dump_module", "dill/session.py:load_module", "dill/_dill.py:save_module", "dill/_dill.py:save_module_dict", "dill/_dill.py:Unpickler.find_class"]}
{"id": "C82", "title": "importable's source text has everything the function uses, before it is used", "statement": "dill.source.importable(f, alias, source=True) returns a text that, line by line, consists of the sources of the global variables f refers to, the sources of the values in its closure, each under the name f uses for it, the sources of the functions in its closure, and f's own source; nothing is lost, no line of one part runs into another, and f (under the alias, if one was given) comes last. Executing the text gives each closure variable the value it had for f.", "quantifier": "every function, every closure (values, functions with closures of their own, any depth), every set of global variables, every alias", "why_tests_cant": "The tests evaluate the text of a few closures of depth one; which parts appear, in which order and where lines are joined must hold for all closures, including nested and self-referring ones.", "anchors": ["dill/source.py:_closuredsource", "dill/source.py:importable"]}
{"id": "C83", "title": "outermost finds the enclosing function or class, or nothing", "statement": "dill.detect.outermost(f), for a function or method f, returns an object bound in f's global namespace whose source block is the block that encloses f; if the enclosing function or class is bound there it is found; otherwise None is returned and never an unrelated object.", "quantifier": "every function and method, every global namespace, every source text", "why_tests_cant": "Tests look up two closures; namespaces and texts are unbounded and the search compares texts.", "anchors": ["dill/detect.py:outermost"]}
{"id": "C84", "title": "referrednested returns exactly the live functions made from nested code", "statement": "dill.detect.referrednested(f) returns exactly the live functions (methods, frames) whose code object is nested in f's code, at any depth, or directly nested with recurse=False.", "quantifier": "every tree of nested code objects, every heap", "why_tests_cant": "Nesting depth, number of nested functions and heap contents are unbounded.", "anchors": ["dill/detect.py:referrednested", "dill/detect.py:nestedcode"]}
{"id": "C85", "title": "The import found for a closure leads to that closure", "statement": "When dill.source.importable(f, source=False) answers with an import statement for a closure f, executing it binds f itself, not another object.", "quantifier": "every closure, every text of the file of the enclosing function, every set of variables", "why_tests_cant": "The name is found by matching a pattern against all lines of a file; the tests have one matching line.", "anchors": ["dill/source.py:_closuredimport", "dill/source.py:importable"]}
{"id": "C86", "title": "ordinary objects can be pickled", "statement": "dill.dumps raises nothing but RecursionError unless the object graph contains an object that cannot be pickled by itself (a generator, an object whose __reduce__ raises), or a function or class that is needed for its own creation and is not found under its name or has a copy of its globals. A finite graph without those, whose reference cycles all pass through something that is created before it is filled, is pickled by every recursion limit above (N+1)^2 nested saves, loads succeeds, and (without self-dependent functions and classes) the copy is exact.", "quantifier": "every finite object graph of tuples, frozensets, lists, dicts, sets, cells, functions, classes, instances and reduce-style objects, every root, every recursion limit", "why_tests_cant": "absence of failures for all graphs: the KeyError and PicklingError branches depend on which objects are being created when another one is met", "anchors": ["dill/_dill.py:_save_with_postproc", "dill/_dill.py:save_function", "dill/_dill.py:save_cell", "dill/_dill.py:save_type", "dill/_dill.py:Pickler.save"]}
{"id": "C87", "title": "handles without a path leave the loader's open files alone", "statement": "Unpickling a file handle that has no path (tempfile.TemporaryFile(), os.fdopen(fd)) touches no file that is open in the process that loads it: none is closed, moved, overwritten, or shared with the new handle; and pickling such a handle leaves it usable.", "quantifier": "every descriptor table of the pickling and of the loading process, every descriptor number, mode, position, closed or open, every file mode setting", "why_tests_cant": "depends on which descriptor numbers happen to be in use in the process that loads the pickle", "anchors": ["dill/_dill.py:_save_file", "dill/_dill.py:_create_filehandle"]}
{"id": "C88", "title": "picklers derived from dill's are treated as dill's, and no others are", "statement": "A subclass of dill.Pickler stores the namespace and the module it works for as dill.Pickler itself does, whatever module the subclass was defined in; and a pickler that is not derived from dill.Pickler never fails because dill mistook it for one of its own.", "quantifier": "every pickler class (defining module, ancestors, settings), every interpreter state, every dict and module pickled", "why_tests_cant": "the answer depends on the name of the module the pickler class happens to be defined in", "anchors": ["dill/_dill.py:is_dill", "dill/_dill.py:save_module_dict", "dill/_dill.py:save_module"]}
{"id": "C89", "title": "load_module restores the saved module and nothing else", "statement": "Loading a session file into the module it was saved from - given as an object, by name, or left to the file - returns that module, in which every saved name has its saved value and every other name is as before; no other module object changes, no entry of sys.modules is replaced or removed, and sys.modules gains only modules found on disk. A module made at run time, loaded without a target, comes back as a new module object that has the saved names and is not left in sys.modules.", "quantifier": "every interpreter state, session file and way of naming the target, whatever modules the values import on loading", "why_tests_cant": "it ranges over every state of sys.modules and of every module object, and over every combination of target and stored module kind", "anchors": ["dill/session.py:load_module", "dill/_dill.py:_import_module", "dill/_dill.py:_is_imported_module", "dill/_dill.py:save_module"]}
{"id": "C90", "title": "numpy objects are saved by their own reduction, else with data and attributes, whatever was pickled before", "statement": "With numpy installed, an instance of an ndarray subclass is saved by the class's own reduction if it has one, and otherwise with its data and all its attributes, which come back; a function registered with dill for the class is used instead; and pickling objects never changes how objects of classes that are not numpy's are saved. None of this depends on what was pickled before.", "quantifier": "every class, every history of pickling, registering and changing classes", "why_tests_cant": "the first pickle of a class changes a process-wide table; the claim is about every later history", "anchors": ["dill/_dill.py:Pickler.save", "dill/_dill.py:ndarraysubclassinstance", "dill/_dill.py:numpyufunc", "dill/_dill.py:numpydtype", "dill/_dill.py:_create_array"]}
{"id": "C91", "title": "getimport leads to the object", "statement": "Executing the text dill.source.getimport(obj, alias) returns makes the alias (without alias, the object's own name) denote obj; for an instance it makes it denote the class of obj, for builtin data the text is an expression for the value.", "quantifier": "every function, class, module, lambda, instance and builtin value; every alias, verify and builtin option", "why_tests_cant": "the answer is computed from reprs and names and ranges over all of them; tests have a dozen", "anchors": ["dill/source.py:getimport", "dill/source.py:_namespace", "dill/source.py:getname", "dill/source.py:_isinstance", "dill/source.py:_getimport"]}
{"id": "C92", "title": "_importable answers in the preferred way, then in the other, and its text is for the object", "statement": "_importable(obj, alias, source=...) returns the source when it is preferred and found, the import when that is preferred and found, else the other, else the name or repr under the alias; for an instance with a describing repr the text imports the class under its own name and gives the repr to the alias; the text is executable.", "quantifier": "every object, alias and option, every success or failure of the ways", "why_tests_cant": "all combinations of failures and all reprs", "anchors": ["dill/source.py:_importable", "dill/source.py:getimport", "dill/source.py:getname"]}
{"id": "C93", "title": "A lambda typed at the prompt is found at the line it was typed on", "statement": "For a lambda entered at the interactive prompt, findsource (and so getsource) returns the number of the history line that the lambda was typed on, whatever was typed afterwards, and does not raise.", "quantifier": "every history, every lambda of it, and every later line", "why_tests_cant": "the search compares bytecode line by line through all of the history; every later line can change the answer", "anchors": ["dill/source.py:_matchlambda", "dill/source.py:findsource"]}
{"id": "C94", "title": "The copy of a class with hooks has the attributes of the class", "statement": "A class that is pickled by value and whose metaclass or bases run hooks at class creation (__prepare__, __init_subclass__, metaclass __new__/__init__, enumerations) loads, and every attribute of the copy is that of the class, whatever keywords its class statement had and whatever was assigned to it since.", "quantifier": "every class statement, keywords, hook, and history of assignments and deletions of class attributes", "why_tests_cant": "the result depends on the keywords, on the defaults of the hooks and on what happened to the class before it was pickled", "anchors": ["dill/_dill.py:save_type", "dill/_dill.py:_create_type", "dill/_dill.py:_setitems"]}
{"id": "C95", "title": "A wrapped function calls the function it wraps, whatever other threads do", "statement": "A function returned by dill.source._wrap, when called, calls the function it was made from (or raises ImportError if no source or import exists), whatever other wrapped functions are called, in whatever threads, at the same time; and it changes nothing else.", "quantifier": "every number of threads, wrapped functions, and interleaving of their calls", "why_tests_cant": "the result depends on the interleaving of the threads, which tests do not control", "anchors": ["dill/source.py:_wrap", "dill/source.py:importable"]}
{"id": "C96", "title": "A module counts as changed exactly when it was changed since its import", "statement": "Once dill's object-diff module is installed (use_diff), every module imported afterwards, directly or by other imports, is memorised when its import returns; has_changed(module) is then true exactly when some object that could be reached from the module at the end of its import has gained, lost or been rebound an attribute or item since.", "quantifier": "every set of modules, import statements nested in any way (circular, failing and caught), every change made by module bodies and afterwards", "why_tests_cant": "depends on the order in which nested imports return and on what can be reached from which module at those moments", "anchors": ["dill/__diff.py:_imp", "dill/__diff.py:memorise", "dill/__diff.py:has_changed"]}
{"id": "C97", "title": "release_gone forgets exactly the objects nobody else refers to", "statement": "In dill's object-diff module, release_gone() removes from the memo exactly the memorised objects that only the memo refers to; the answers about all other objects stay what they were.", "quantifier": "every memo, every number of references to each object, every interpreter (own references held by the call, or no reference counts)", "why_tests_cant": "depends on the interpreter's reference counts and on reuse of object identities", "anchors": ["dill/__diff.py:release_gone", "dill/__diff.py:getrefcount"]}
{"id": "C98", "title": "dump_module saves a state that the module had, whatever other threads do", "statement": "While dump_module runs, other threads may bind, rebind and delete names of the module. The names and objects that are saved are those the module had at one moment during the call (without __builtins__ and __loader__), and the call does not fail because of the other threads.", "quantifier": "every namespace, every schedule of bindings, rebindings and deletions by other threads between any two steps of the call, with and without refimported", "why_tests_cant": "a schedule property: the interleavings of other threads with the loop over a live dictionary cannot be enumerated", "anchors": ["dill/session.py:_stash_modules", "dill/session.py:dump_module", "dill/_dill.py:save_module"]}
{"id": "C99", "title": "A pickled super object finds the same attributes", "statement": "loads(dumps(s)) for a super object s is a super object for the copy of the same instance (or class) and the same class, and reading any attribute through it gives what reading it through s gives.", "quantifier": "every class hierarchy, every bound or unbound super object, every attribute name, every history of the instance's __class__ between the making of s and the dump", "why_tests_cant": "ranges over all class hierarchies and over histories in which __class__ is reassigned", "anchors": ["dill/_dill.py:save_super"]}
{"id": "C100", "title": "load_module_asdict in several threads", "statement": "Concurrent calls of load_module_asdict each return the contents of their own session file and nothing else, change no module the program knows, and leave sys.modules as it was.", "quantifier": "every number of threads, every choice of module names and session files, every interleaving of the calls' steps", "why_tests_cant": "quantifies over all interleavings of any number of threads", "anchors": ["dill/session.py:load_module_asdict", "dill/session.py:load_module", "dill/_dill.py:_is_imported_module"]}
{"id": "C101", "title": "Interpreter-wide settings are put back, whatever threads do", "statement": "When every use of dill in every thread is over, sys.stdout and the warning filters are what they were and act as they did; a capture block's buffer holds exactly what was printed in the block; filters added by other threads meanwhile are kept.", "quantifier": "every number of threads using capture, dumping functions or calling pickles, every interleaving of their steps with each other and with threads outside dill", "why_tests_cant": "quantifies over all interleavings of any number of threads", "anchors": ["dill/temp.py:capture", "dill/_dill.py:save_code", "dill/_dill.py:pickles"]}
{"id": "C102", "title": "Loading a file handle destroys no data, whatever other processes do and whenever it is killed", "statement": "While loads rebuilds a pickled file handle with CONTENTS_FMODE (any mode) or HANDLE_FMODE (unless open for writing), no file ever loses or changes its contents; with FILE_FMODE the file holds the old or the pickled contents; no other file is ever touched.", "quantifier": "every file system, every pickled handle, every behaviour of other processes between any two system calls, every moment at which the loading process is killed", "why_tests_cant": "ranges over all interleavings with other processes and all crash points", "anchors": ["dill/_dill.py:_create_filehandle"]}
{"id": "C103", "title": "The pickle of an object does not depend on memory addresses, nor on anything that cannot be reached from it", "statement": "Two programs (or two moments of one program) that hold the same object - same kinds, same values, same sharing and cycles, containers iterated in the same order, found under the same names if at all - get the same bytes from dumps, or the same exception, wherever the objects are in memory and whatever else there is.", "quantifier": "every object graph, every placement in memory, every other content of the memory, every recursion limit, every protocol 2 to 5", "why_tests_cant": "a test runs with the addresses the allocator happens to give; the claim is for all of them, and for cyclic graphs of any size", "anchors": ["dill/_dill.py:Pickler.save", "dill/_dill.py:_save_with_postproc", "dill/_dill.py:save_function", "dill/_dill.py:save_cell", "dill/detect.py:globalvars"]}
{"id": "C104", "title": "A list, set or dict that changes while it is being pickled", "statement": "Whatever other threads and reducers do to the containers while dump runs: the pickle never refers to an object it does not contain; nothing is written as the contents of a container that was not in it at some moment; a container that stays below 1000 entries is written exactly as it was at one moment; a list only appended to, and a set or dict that only gains entries, is written as it was at one moment whatever its size (or the dump fails); a dict whose values are rebound but whose keys stay put is written with exactly its keys and never makes the dump fail; a list never makes the dump fail; if nothing changes everything is exact; and the dump ends if the containers stay bounded.", "quantifier": "every graph of containers, every history of changes to it (the heap at every step is arbitrary), every batch size, every number of steps", "why_tests_cant": "what is written depends on where between two steps of the pickler the changes fall; a test sees one schedule", "anchors": ["dill/_dill.py:Pickler", "dill/_dill.py:save_module_dict"]}
{"id": "C105", "title": "A reference by name is looked up under the same name, at every protocol", "statement": "A class, function or module namespace that is pickled by reference is looked up on loading under the module and name it was found under; at protocols 0 to 2, which rename for Python 2, exactly the listed modules and names fail to, and names that are not ASCII are refused; the references dill spells out itself mean the same at every protocol.", "quantifier": "every module name, every name, every protocol number", "why_tests_cant": "the two renaming tables are not inverse to each other; which of the infinitely many names they damage cannot be found by trying some", "anchors": ["dill/_dill.py:Unpickler.find_class", "dill/_dill.py:save_module_dict", "dill/_dill.py:save_type"]}
{"id": "C106", "title": "Keys are whole when they are hashed", "statement": "When loading inserts a key into a dict or an element into a set, so that its __hash__ runs, the key and everything reachable from it have been restored completely.", "quantifier": "every finite or infinite object graph with shared and cyclic references, every batch size, every dumped object, every protocol", "why_tests_cant": "whether a key is complete depends on the cycles of the graph and on which object of the cycle was dumped; the failing graphs are found only by following all paths", "anchors": ["dill/_dill.py:Pickler.save", "dill/_dill.py:save_module_dict", "dill/_dill.py:dumps", "dill/_dill.py:loads"]}
{"id": "C107", "title": "A session file that is being overwritten loads as the old or the new session, or not at all", "statement": "While dump_module(path) overwrites a session file, load_module(path) in another process returns the old session, or the new one, or raises; when all dump_module calls on a path have finished, the file holds the session of one of them.", "quantifier": "every old content of the file, every session, every number of dumping processes, every interleaving of their system calls with those of the reader, every moment at which a dump is killed", "why_tests_cant": "the failing interleavings have a window of a few microseconds between two reads or two writes; a test does not choose the schedule", "anchors": ["dill/session.py:dump_module", "dill/session.py:load_module", "dill/session.py:_safe_open_for_writing", "dill/session.py:_safe_open_for_reading"]}
{"id": "C108", "title": "A copied bound method belongs to its copied object", "statement": "When a bound method is pickled, alone or anywhere in an object graph, its copy is a bound method whose __self__ is the copy of the object (the same one that every other reference to the object leads to) and whose __func__ is the copy of the function, and which is still the function found on the object's class if it was before.", "quantifier": "every finite or infinite object graph with shared and cyclic references (an object that holds its own methods as callbacks included), every place of the method in it, every path from the root or the object", "why_tests_cant": "the sharing between the method's object and the rest of the graph depends on the order in which the pickler meets them, on memoisation, and on cycles through the object's own state; tests try one or two orders", "anchors": ["dill/_dill.py:save_instancemethod0", "dill/_dill.py:save_function", "dill/_dill.py:_locate_function"]}
{"id": "C109", "title": "A pickle at protocol p is read by exactly the Pythons that know protocol p", "statement": "The bytes that dump(obj, protocol=p) or dumps writes contain only opcodes that exist at protocol p, so every Python 3 whose pickle module supports protocol p reads the same object graph from them and stops where the pickle ends; a Python that only knows older protocols refuses the pickle instead of loading something else.", "quantifier": "every object graph, every protocol 2 to 5, every way of framing and of memoising names, every highest protocol of the reader, whatever follows in the file", "why_tests_cant": "whether some object makes the pickler write an opcode of a later protocol depends on every branch of every saver and on sizes (long strings, many memo entries, large integers); tests run one Python, whose reader knows all opcodes", "anchors": ["dill/_dill.py:Pickler", "dill/_dill.py:dump", "dill/_dill.py:Unpickler", "dill/settings.py:settings"]}
{"id": "C110", "title": "The copy of a dataclass is a dataclass with the same fields", "statement": "A dataclass that is pickled by value, in whatever object graph, loads as a dataclass: dataclasses.fields(copy) has the same names in the same order, class variables and init-only variables are told apart as before, and exactly the fields that have no default still have none.", "quantifier": "every object graph, every dataclass in it, reached by whatever path; every attribute of its fields and every marker", "why_tests_cant": "the dataclasses module compares its markers by identity, so one more way to reach a marker in a graph that writes it as an ordinary object gives a class that looks right and has no fields; tests pickle a few classes", "anchors": ["dill/_dill.py:save_dataclasses_HAS_DEFAULT_FACTORY_CLASS", "dill/_dill.py:save_dataclasses_MISSING_TYPE", "dill/_dill.py:save_dataclasses_KW_ONLY_TYPE", "dill/_dill.py:save_dataclasses_FIELD_BASE"]}
{"id": "C111", "title": "The length of a pickle is bounded by the size of the graph", "statement": "However objects are shared, however cycles run and whatever dill defers or starts again, dumps writes a number of opcodes that is at most quadratic in the number of objects and references that can be reached: sharing never makes a pickle blow up. It is linear as soon as no object other than a cell is reachable from what has to exist before it can be created, in particular without cycles.", "quantifier": "every object graph of any size without a cycle of creation-time references only, every recursion limit with which dumps succeeds", "why_tests_cant": "a blow-up needs a particular pattern of sharing and of cycles through objects that are created after their parts; tests pickle small graphs, and a bound is about all sizes", "anchors": ["dill/_dill.py:Pickler.save", "dill/_dill.py:_save_with_postproc", "dill/_dill.py:save_cell", "dill/_dill.py:save_function"]}
{"id": "C112", "title": "A copy is as good as the original", "statement": "What was loaded can be pickled and loaded again, any number of times: no generation fails, and in every generation the same kinds of objects are found at the same paths, and two paths meet exactly when they met in the first graph; nothing is added either.", "quantifier": "every finite object graph without unpicklable objects, every number of round trips, every recursion limit with which a round trip succeeds", "why_tests_cant": "tests make one round trip of small graphs; a loss that shows only when a copy is copied again (a cell filled differently, a class whose method's closure no longer reaches it, items appended twice) needs every graph and every number of generations", "anchors": ["dill/_dill.py:dumps", "dill/_dill.py:loads", "dill/_dill.py:save_function", "dill/_dill.py:save_type", "dill/_dill.py:save_cell", "dill/_dill.py:_save_with_postproc"]}
{"id": "C113", "title": "What can be pickled, and what is loaded, does not depend on the protocol", "statement": "If dumps(x, protocol=p) succeeds for one protocol p, then, with a high enough recursion limit, it succeeds for every protocol, however sets and frozensets are shared and lie on reference cycles; and the object loaded from the pickle is at every protocol an exact copy: the same kinds, the same items in the same order, the same sharing.", "quantifier": "every finite object graph with sets and frozensets, every root, every two protocols, every recursion limit", "why_tests_cant": "sets are written in two quite different ways (made first and filled, or made from a list of their elements); which graphs the second way cannot write is a statement about every cycle of every graph", "anchors": ["dill/_dill.py:dumps", "dill/_dill.py:dump", "dill/_dill.py:Pickler.save", "dill/settings.py:settings"]}
{"id": "C114", "title": "The command line tools show what they are asked to and change no other file", "statement": "undill prints all the objects in the files it is given, in order; get_objgraph writes the image of the type or of the pickled object, and get_gprof the profile graph, to the file each announces; every other file, the pickle itself included, is as before.", "quantifier": "every file system, every list of arguments, every file name, every outcome of loading, evaluating, pickling and drawing", "why_tests_cant": "which file is overwritten depends on how the names of the files and types relate, and on every point at which a run can end", "anchors": ["scripts/undill", "scripts/get_objgraph", "scripts/get_gprof"]}
{"id": "C115", "title": "license() and the description are the same installed and from the sources", "statement": "dill.license() prints the contents of the LICENSE file, and dill.__doc__ is the description made from the README, whether dill is installed (where both come from the generated dill/__info__.py) or used from its sources.", "quantifier": "every text of the license and of the description", "why_tests_cant": "the generated file has the texts as string literals without any escaping; which texts survive is a statement about all of them", "anchors": ["version.py:write_info_file", "version.py:get_license_text", "dill/__init__.py:license", "setup.py"]}
