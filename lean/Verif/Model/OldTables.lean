/-
Generated by tools/gen_oldnames.py from the standard library's `_compat_pickle.py` (CPython 3.11, on Linux), as it stands
after its loops and updates: how protocols 0 to 2 rename modules and globals.
-/
namespace Verif.OldNames

/-- `_compat_pickle.IMPORT_MAPPING` (`_compat_pickle.py:8-51` and `:172-187`): Python 2 module to Python 3 module. -/
def importMapping : List (String × String) :=
  [("__builtin__", "builtins"),
   ("copy_reg", "copyreg"),
   ("Queue", "queue"),
   ("SocketServer", "socketserver"),
   ("ConfigParser", "configparser"),
   ("repr", "reprlib"),
   ("tkFileDialog", "tkinter.filedialog"),
   ("tkSimpleDialog", "tkinter.simpledialog"),
   ("tkColorChooser", "tkinter.colorchooser"),
   ("tkCommonDialog", "tkinter.commondialog"),
   ("Dialog", "tkinter.dialog"),
   ("Tkdnd", "tkinter.dnd"),
   ("tkFont", "tkinter.font"),
   ("tkMessageBox", "tkinter.messagebox"),
   ("ScrolledText", "tkinter.scrolledtext"),
   ("Tkconstants", "tkinter.constants"),
   ("Tix", "tkinter.tix"),
   ("ttk", "tkinter.ttk"),
   ("Tkinter", "tkinter"),
   ("markupbase", "_markupbase"),
   ("_winreg", "winreg"),
   ("thread", "_thread"),
   ("dummy_thread", "_dummy_thread"),
   ("dbhash", "dbm.bsd"),
   ("dumbdbm", "dbm.dumb"),
   ("dbm", "dbm.ndbm"),
   ("gdbm", "dbm.gnu"),
   ("xmlrpclib", "xmlrpc.client"),
   ("SimpleXMLRPCServer", "xmlrpc.server"),
   ("httplib", "http.client"),
   ("htmlentitydefs", "html.entities"),
   ("HTMLParser", "html.parser"),
   ("Cookie", "http.cookies"),
   ("cookielib", "http.cookiejar"),
   ("BaseHTTPServer", "http.server"),
   ("test.test_support", "test.support"),
   ("commands", "subprocess"),
   ("urlparse", "urllib.parse"),
   ("robotparser", "urllib.robotparser"),
   ("urllib2", "urllib.request"),
   ("anydbm", "dbm"),
   ("_abcoll", "collections.abc"),
   ("cPickle", "pickle"),
   ("_elementtree", "xml.etree.ElementTree"),
   ("FileDialog", "tkinter.filedialog"),
   ("SimpleDialog", "tkinter.simpledialog"),
   ("DocXMLRPCServer", "xmlrpc.server"),
   ("SimpleHTTPServer", "http.server"),
   ("CGIHTTPServer", "http.server"),
   ("UserDict", "collections"),
   ("UserList", "collections"),
   ("UserString", "collections"),
   ("whichdb", "dbm"),
   ("StringIO", "io"),
   ("cStringIO", "io")]

/-- `_compat_pickle.NAME_MAPPING` (`_compat_pickle.py:57-92`, `:151-152`, `:161-162`, `:197-202`). -/
def nameMapping : List ((String × String) × (String × String)) :=
  [(("__builtin__", "xrange"), ("builtins", "range")),
   (("__builtin__", "reduce"), ("functools", "reduce")),
   (("__builtin__", "intern"), ("sys", "intern")),
   (("__builtin__", "unichr"), ("builtins", "chr")),
   (("__builtin__", "unicode"), ("builtins", "str")),
   (("__builtin__", "long"), ("builtins", "int")),
   (("itertools", "izip"), ("builtins", "zip")),
   (("itertools", "imap"), ("builtins", "map")),
   (("itertools", "ifilter"), ("builtins", "filter")),
   (("itertools", "ifilterfalse"), ("itertools", "filterfalse")),
   (("itertools", "izip_longest"), ("itertools", "zip_longest")),
   (("UserDict", "IterableUserDict"), ("collections", "UserDict")),
   (("UserList", "UserList"), ("collections", "UserList")),
   (("UserString", "UserString"), ("collections", "UserString")),
   (("whichdb", "whichdb"), ("dbm", "whichdb")),
   (("_socket", "fromfd"), ("socket", "fromfd")),
   (("_multiprocessing", "Connection"), ("multiprocessing.connection", "Connection")),
   (("multiprocessing.process", "Process"), ("multiprocessing.context", "Process")),
   (("multiprocessing.forking", "Popen"), ("multiprocessing.popen_fork", "Popen")),
   (("urllib", "ContentTooShortError"), ("urllib.error", "ContentTooShortError")),
   (("urllib", "getproxies"), ("urllib.request", "getproxies")),
   (("urllib", "pathname2url"), ("urllib.request", "pathname2url")),
   (("urllib", "quote_plus"), ("urllib.parse", "quote_plus")),
   (("urllib", "quote"), ("urllib.parse", "quote")),
   (("urllib", "unquote_plus"), ("urllib.parse", "unquote_plus")),
   (("urllib", "unquote"), ("urllib.parse", "unquote")),
   (("urllib", "url2pathname"), ("urllib.request", "url2pathname")),
   (("urllib", "urlcleanup"), ("urllib.request", "urlcleanup")),
   (("urllib", "urlencode"), ("urllib.parse", "urlencode")),
   (("urllib", "urlopen"), ("urllib.request", "urlopen")),
   (("urllib", "urlretrieve"), ("urllib.request", "urlretrieve")),
   (("urllib2", "HTTPError"), ("urllib.error", "HTTPError")),
   (("urllib2", "URLError"), ("urllib.error", "URLError")),
   (("exceptions", "ArithmeticError"), ("builtins", "ArithmeticError")),
   (("exceptions", "AssertionError"), ("builtins", "AssertionError")),
   (("exceptions", "AttributeError"), ("builtins", "AttributeError")),
   (("exceptions", "BaseException"), ("builtins", "BaseException")),
   (("exceptions", "BufferError"), ("builtins", "BufferError")),
   (("exceptions", "BytesWarning"), ("builtins", "BytesWarning")),
   (("exceptions", "DeprecationWarning"), ("builtins", "DeprecationWarning")),
   (("exceptions", "EOFError"), ("builtins", "EOFError")),
   (("exceptions", "EnvironmentError"), ("builtins", "EnvironmentError")),
   (("exceptions", "Exception"), ("builtins", "Exception")),
   (("exceptions", "FloatingPointError"), ("builtins", "FloatingPointError")),
   (("exceptions", "FutureWarning"), ("builtins", "FutureWarning")),
   (("exceptions", "GeneratorExit"), ("builtins", "GeneratorExit")),
   (("exceptions", "IOError"), ("builtins", "IOError")),
   (("exceptions", "ImportError"), ("builtins", "ImportError")),
   (("exceptions", "ImportWarning"), ("builtins", "ImportWarning")),
   (("exceptions", "IndentationError"), ("builtins", "IndentationError")),
   (("exceptions", "IndexError"), ("builtins", "IndexError")),
   (("exceptions", "KeyError"), ("builtins", "KeyError")),
   (("exceptions", "KeyboardInterrupt"), ("builtins", "KeyboardInterrupt")),
   (("exceptions", "LookupError"), ("builtins", "LookupError")),
   (("exceptions", "MemoryError"), ("builtins", "MemoryError")),
   (("exceptions", "NameError"), ("builtins", "NameError")),
   (("exceptions", "NotImplementedError"), ("builtins", "NotImplementedError")),
   (("exceptions", "OSError"), ("builtins", "OSError")),
   (("exceptions", "OverflowError"), ("builtins", "OverflowError")),
   (("exceptions", "PendingDeprecationWarning"), ("builtins", "PendingDeprecationWarning")),
   (("exceptions", "ReferenceError"), ("builtins", "ReferenceError")),
   (("exceptions", "RuntimeError"), ("builtins", "RuntimeError")),
   (("exceptions", "RuntimeWarning"), ("builtins", "RuntimeWarning")),
   (("exceptions", "StopIteration"), ("builtins", "StopIteration")),
   (("exceptions", "SyntaxError"), ("builtins", "SyntaxError")),
   (("exceptions", "SyntaxWarning"), ("builtins", "SyntaxWarning")),
   (("exceptions", "SystemError"), ("builtins", "SystemError")),
   (("exceptions", "SystemExit"), ("builtins", "SystemExit")),
   (("exceptions", "TabError"), ("builtins", "TabError")),
   (("exceptions", "TypeError"), ("builtins", "TypeError")),
   (("exceptions", "UnboundLocalError"), ("builtins", "UnboundLocalError")),
   (("exceptions", "UnicodeDecodeError"), ("builtins", "UnicodeDecodeError")),
   (("exceptions", "UnicodeEncodeError"), ("builtins", "UnicodeEncodeError")),
   (("exceptions", "UnicodeError"), ("builtins", "UnicodeError")),
   (("exceptions", "UnicodeTranslateError"), ("builtins", "UnicodeTranslateError")),
   (("exceptions", "UnicodeWarning"), ("builtins", "UnicodeWarning")),
   (("exceptions", "UserWarning"), ("builtins", "UserWarning")),
   (("exceptions", "ValueError"), ("builtins", "ValueError")),
   (("exceptions", "Warning"), ("builtins", "Warning")),
   (("exceptions", "ZeroDivisionError"), ("builtins", "ZeroDivisionError")),
   (("multiprocessing", "AuthenticationError"), ("multiprocessing.context", "AuthenticationError")),
   (("multiprocessing", "BufferTooShort"), ("multiprocessing.context", "BufferTooShort")),
   (("multiprocessing", "ProcessError"), ("multiprocessing.context", "ProcessError")),
   (("multiprocessing", "TimeoutError"), ("multiprocessing.context", "TimeoutError")),
   (("__builtin__", "basestring"), ("builtins", "str")),
   (("exceptions", "StandardError"), ("builtins", "Exception")),
   (("UserDict", "UserDict"), ("collections", "UserDict")),
   (("socket", "_socketobject"), ("socket", "SocketType"))]

/-- `_compat_pickle.REVERSE_IMPORT_MAPPING` (`_compat_pickle.py:165`, `:189-195`): what is written for a Python 3 module. -/
def reverseImportMapping : List (String × String) :=
  [("builtins", "__builtin__"),
   ("copyreg", "copy_reg"),
   ("queue", "Queue"),
   ("socketserver", "SocketServer"),
   ("configparser", "ConfigParser"),
   ("reprlib", "repr"),
   ("tkinter.filedialog", "tkFileDialog"),
   ("tkinter.simpledialog", "tkSimpleDialog"),
   ("tkinter.colorchooser", "tkColorChooser"),
   ("tkinter.commondialog", "tkCommonDialog"),
   ("tkinter.dialog", "Dialog"),
   ("tkinter.dnd", "Tkdnd"),
   ("tkinter.font", "tkFont"),
   ("tkinter.messagebox", "tkMessageBox"),
   ("tkinter.scrolledtext", "ScrolledText"),
   ("tkinter.constants", "Tkconstants"),
   ("tkinter.tix", "Tix"),
   ("tkinter.ttk", "ttk"),
   ("tkinter", "Tkinter"),
   ("_markupbase", "markupbase"),
   ("winreg", "_winreg"),
   ("_thread", "thread"),
   ("_dummy_thread", "dummy_thread"),
   ("dbm.bsd", "dbhash"),
   ("dbm.dumb", "dumbdbm"),
   ("dbm.ndbm", "dbm"),
   ("dbm.gnu", "gdbm"),
   ("xmlrpc.client", "xmlrpclib"),
   ("xmlrpc.server", "SimpleXMLRPCServer"),
   ("http.client", "httplib"),
   ("html.entities", "htmlentitydefs"),
   ("html.parser", "HTMLParser"),
   ("http.cookies", "Cookie"),
   ("http.cookiejar", "cookielib"),
   ("http.server", "BaseHTTPServer"),
   ("test.support", "test.test_support"),
   ("subprocess", "commands"),
   ("urllib.parse", "urlparse"),
   ("urllib.robotparser", "robotparser"),
   ("urllib.request", "urllib2"),
   ("dbm", "anydbm"),
   ("collections.abc", "_abcoll"),
   ("_bz2", "bz2"),
   ("_dbm", "dbm"),
   ("_functools", "functools"),
   ("_gdbm", "gdbm"),
   ("_pickle", "pickle")]

/-- `_compat_pickle.REVERSE_NAME_MAPPING` (`_compat_pickle.py:167`, `:204-251`). -/
def reverseNameMapping : List ((String × String) × (String × String)) :=
  [(("builtins", "range"), ("__builtin__", "xrange")),
   (("functools", "reduce"), ("__builtin__", "reduce")),
   (("sys", "intern"), ("__builtin__", "intern")),
   (("builtins", "chr"), ("__builtin__", "unichr")),
   (("builtins", "str"), ("__builtin__", "unicode")),
   (("builtins", "int"), ("__builtin__", "long")),
   (("builtins", "zip"), ("itertools", "izip")),
   (("builtins", "map"), ("itertools", "imap")),
   (("builtins", "filter"), ("itertools", "ifilter")),
   (("itertools", "filterfalse"), ("itertools", "ifilterfalse")),
   (("itertools", "zip_longest"), ("itertools", "izip_longest")),
   (("collections", "UserDict"), ("UserDict", "IterableUserDict")),
   (("collections", "UserList"), ("UserList", "UserList")),
   (("collections", "UserString"), ("UserString", "UserString")),
   (("dbm", "whichdb"), ("whichdb", "whichdb")),
   (("socket", "fromfd"), ("_socket", "fromfd")),
   (("multiprocessing.connection", "Connection"), ("_multiprocessing", "Connection")),
   (("multiprocessing.context", "Process"), ("multiprocessing.process", "Process")),
   (("multiprocessing.popen_fork", "Popen"), ("multiprocessing.forking", "Popen")),
   (("urllib.error", "ContentTooShortError"), ("urllib", "ContentTooShortError")),
   (("urllib.request", "getproxies"), ("urllib", "getproxies")),
   (("urllib.request", "pathname2url"), ("urllib", "pathname2url")),
   (("urllib.parse", "quote_plus"), ("urllib", "quote_plus")),
   (("urllib.parse", "quote"), ("urllib", "quote")),
   (("urllib.parse", "unquote_plus"), ("urllib", "unquote_plus")),
   (("urllib.parse", "unquote"), ("urllib", "unquote")),
   (("urllib.request", "url2pathname"), ("urllib", "url2pathname")),
   (("urllib.request", "urlcleanup"), ("urllib", "urlcleanup")),
   (("urllib.parse", "urlencode"), ("urllib", "urlencode")),
   (("urllib.request", "urlopen"), ("urllib", "urlopen")),
   (("urllib.request", "urlretrieve"), ("urllib", "urlretrieve")),
   (("urllib.error", "HTTPError"), ("urllib2", "HTTPError")),
   (("urllib.error", "URLError"), ("urllib2", "URLError")),
   (("builtins", "ArithmeticError"), ("exceptions", "ArithmeticError")),
   (("builtins", "AssertionError"), ("exceptions", "AssertionError")),
   (("builtins", "AttributeError"), ("exceptions", "AttributeError")),
   (("builtins", "BaseException"), ("exceptions", "BaseException")),
   (("builtins", "BufferError"), ("exceptions", "BufferError")),
   (("builtins", "BytesWarning"), ("exceptions", "BytesWarning")),
   (("builtins", "DeprecationWarning"), ("exceptions", "DeprecationWarning")),
   (("builtins", "EOFError"), ("exceptions", "EOFError")),
   (("builtins", "EnvironmentError"), ("exceptions", "EnvironmentError")),
   (("builtins", "Exception"), ("exceptions", "Exception")),
   (("builtins", "FloatingPointError"), ("exceptions", "FloatingPointError")),
   (("builtins", "FutureWarning"), ("exceptions", "FutureWarning")),
   (("builtins", "GeneratorExit"), ("exceptions", "GeneratorExit")),
   (("builtins", "IOError"), ("exceptions", "IOError")),
   (("builtins", "ImportError"), ("exceptions", "ImportError")),
   (("builtins", "ImportWarning"), ("exceptions", "ImportWarning")),
   (("builtins", "IndentationError"), ("exceptions", "IndentationError")),
   (("builtins", "IndexError"), ("exceptions", "IndexError")),
   (("builtins", "KeyError"), ("exceptions", "KeyError")),
   (("builtins", "KeyboardInterrupt"), ("exceptions", "KeyboardInterrupt")),
   (("builtins", "LookupError"), ("exceptions", "LookupError")),
   (("builtins", "MemoryError"), ("exceptions", "MemoryError")),
   (("builtins", "NameError"), ("exceptions", "NameError")),
   (("builtins", "NotImplementedError"), ("exceptions", "NotImplementedError")),
   (("builtins", "OSError"), ("exceptions", "OSError")),
   (("builtins", "OverflowError"), ("exceptions", "OverflowError")),
   (("builtins", "PendingDeprecationWarning"), ("exceptions", "PendingDeprecationWarning")),
   (("builtins", "ReferenceError"), ("exceptions", "ReferenceError")),
   (("builtins", "RuntimeError"), ("exceptions", "RuntimeError")),
   (("builtins", "RuntimeWarning"), ("exceptions", "RuntimeWarning")),
   (("builtins", "StopIteration"), ("exceptions", "StopIteration")),
   (("builtins", "SyntaxError"), ("exceptions", "SyntaxError")),
   (("builtins", "SyntaxWarning"), ("exceptions", "SyntaxWarning")),
   (("builtins", "SystemError"), ("exceptions", "SystemError")),
   (("builtins", "SystemExit"), ("exceptions", "SystemExit")),
   (("builtins", "TabError"), ("exceptions", "TabError")),
   (("builtins", "TypeError"), ("exceptions", "TypeError")),
   (("builtins", "UnboundLocalError"), ("exceptions", "UnboundLocalError")),
   (("builtins", "UnicodeDecodeError"), ("exceptions", "UnicodeDecodeError")),
   (("builtins", "UnicodeEncodeError"), ("exceptions", "UnicodeEncodeError")),
   (("builtins", "UnicodeError"), ("exceptions", "UnicodeError")),
   (("builtins", "UnicodeTranslateError"), ("exceptions", "UnicodeTranslateError")),
   (("builtins", "UnicodeWarning"), ("exceptions", "UnicodeWarning")),
   (("builtins", "UserWarning"), ("exceptions", "UserWarning")),
   (("builtins", "ValueError"), ("exceptions", "ValueError")),
   (("builtins", "Warning"), ("exceptions", "Warning")),
   (("builtins", "ZeroDivisionError"), ("exceptions", "ZeroDivisionError")),
   (("multiprocessing.context", "AuthenticationError"), ("multiprocessing", "AuthenticationError")),
   (("multiprocessing.context", "BufferTooShort"), ("multiprocessing", "BufferTooShort")),
   (("multiprocessing.context", "ProcessError"), ("multiprocessing", "ProcessError")),
   (("multiprocessing.context", "TimeoutError"), ("multiprocessing", "TimeoutError")),
   (("_functools", "reduce"), ("__builtin__", "reduce")),
   (("tkinter.filedialog", "FileDialog"), ("FileDialog", "FileDialog")),
   (("tkinter.filedialog", "LoadFileDialog"), ("FileDialog", "LoadFileDialog")),
   (("tkinter.filedialog", "SaveFileDialog"), ("FileDialog", "SaveFileDialog")),
   (("tkinter.simpledialog", "SimpleDialog"), ("SimpleDialog", "SimpleDialog")),
   (("xmlrpc.server", "ServerHTMLDoc"), ("DocXMLRPCServer", "ServerHTMLDoc")),
   (("xmlrpc.server", "XMLRPCDocGenerator"), ("DocXMLRPCServer", "XMLRPCDocGenerator")),
   (("xmlrpc.server", "DocXMLRPCRequestHandler"), ("DocXMLRPCServer", "DocXMLRPCRequestHandler")),
   (("xmlrpc.server", "DocXMLRPCServer"), ("DocXMLRPCServer", "DocXMLRPCServer")),
   (("xmlrpc.server", "DocCGIXMLRPCRequestHandler"), ("DocXMLRPCServer", "DocCGIXMLRPCRequestHandler")),
   (("http.server", "SimpleHTTPRequestHandler"), ("SimpleHTTPServer", "SimpleHTTPRequestHandler")),
   (("http.server", "CGIHTTPRequestHandler"), ("CGIHTTPServer", "CGIHTTPRequestHandler")),
   (("_socket", "socket"), ("socket", "_socketobject")),
   (("builtins", "BrokenPipeError"), ("exceptions", "OSError")),
   (("builtins", "ChildProcessError"), ("exceptions", "OSError")),
   (("builtins", "ConnectionAbortedError"), ("exceptions", "OSError")),
   (("builtins", "ConnectionError"), ("exceptions", "OSError")),
   (("builtins", "ConnectionRefusedError"), ("exceptions", "OSError")),
   (("builtins", "ConnectionResetError"), ("exceptions", "OSError")),
   (("builtins", "FileExistsError"), ("exceptions", "OSError")),
   (("builtins", "FileNotFoundError"), ("exceptions", "OSError")),
   (("builtins", "InterruptedError"), ("exceptions", "OSError")),
   (("builtins", "IsADirectoryError"), ("exceptions", "OSError")),
   (("builtins", "NotADirectoryError"), ("exceptions", "OSError")),
   (("builtins", "PermissionError"), ("exceptions", "OSError")),
   (("builtins", "ProcessLookupError"), ("exceptions", "OSError")),
   (("builtins", "TimeoutError"), ("exceptions", "OSError")),
   (("builtins", "ModuleNotFoundError"), ("exceptions", "ImportError"))]

end Verif.OldNames
