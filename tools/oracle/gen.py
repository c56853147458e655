import random, json, pickletools, io, struct, sys, inspect
random.seed(int(sys.argv[1]))
cases=[]
def add(f,a,exp): cases.append((f,a,exp))
o=lambda s:[ord(c) for c in s]
ol=lambda l:[o(s) for s in l]
W=" \t\n\r\x0b\x0c"
def rs(alpha,n=12): return ''.join(random.choice(alpha) for _ in range(random.randrange(n)))
uni="ab \t\n\r\x0b\x0c\x1c\x1d\x1e\x1f\x85\xa0\u1680\u2000\u200a\u200b\u2028\u2029\u202f\u205f\u3000\u180e\ufeff#"
def tr(f,*e):
    try: return f()
    except e: return None
for _ in range(400):
    sep=rs("ab,",3) or ","; s=rs("ab,",15); add("split",[o(sep),o(s)],ol(s.split(sep)))
    s=rs("ab"+W+"\x1c\x1d\x1e\x1f",15); add("splitWs",[o(s)],ol(s.split()))
    s=rs("a>b>",10); add("rstrip",[o(">"),o(s)],o(s.rstrip(">")))
    s=rs(uni,15); add("tsplit",[o(s)],ol(s.split())); add("tstrip",[o(s)],o(s.strip())); add("splitlines",[o(s)],ol(s.splitlines()))
    n=random.randrange(4); add("csplit",[n,o(s)],ol(s.split(None,n)))
    s=rs("0xXaAfF19_-+ g\n",8)
    r=tr(lambda:int(s,16),ValueError)
    add("int16",[o(s)],[r is not None, None if r is None or r<0 else r])
    b=bytes(random.choice([0,9,10,13,39,34,92,65,66,120,127,128,200,255,31,32]) for _ in range(random.randrange(10)))
    add("reprBytes",[list(b)],o(repr(b)))
    t=rs("b'\"\\xtnr0a9\n",12)
    def ev():
        import ast
        try:
            v=ast.literal_eval(compile("("+t+")","x","eval",ast.PyCF_ONLY_AST))
            return list(v) if isinstance(v,bytes) else None
        except Exception: return None
    import warnings; warnings.simplefilter("ignore")
    add("loadedBy",[o(t)],("soft",ev()))
    t=repr(b); add("loadedBy",[o(t)],list(b))
    bs=bytes(random.choice([0x41,0x80,0xbf,0xc0,0xc1,0xc2,0xdf,0xe0,0xa0,0x9f,0xed,0xef,0xf0,0x90,0x8f,0xf4,0xf5,0x7f]) for _ in range(random.randrange(6)))
    r=tr(lambda:bs.decode('utf-8','surrogatepass'),UnicodeDecodeError); add("utf8Dec",[list(bs)],None if r is None else o(r))
    r=tr(lambda:bs.decode('utf-8'),UnicodeDecodeError); add("utf8t",[list(bs)],("softutf",None if r is None else o(r)))
    s=''.join(chr(random.choice([65,0x7f,0x80,0xff,0x100,0x7ff,0x800,0xd800,0xdfff,0xffff,0x10000,0x10ffff,92,0,10,13,26])) for _ in range(random.randrange(6)))
    add("utf8Enc",[o(s)],list(s.encode('utf-8','surrogatepass')))
    e=s.replace("\\", "\\u005c").replace("\0","\\u0000").replace("\n","\\u000a").replace("\r","\\u000d").replace("\x1a","\\u001a").encode('raw-unicode-escape')
    add("rawEnc",[o(s)],list(e))
    bs=bytes(random.choice(b"\\\\uU0011aAfgxyz\xff") for _ in range(random.randrange(14)))
    r=tr(lambda:str(bs,'raw-unicode-escape'),UnicodeDecodeError); add("rawDec",[list(bs)],None if r is None else o(r))
    a,b2,c=[random.choice([0,1,-1,5,-77,10**20,2]) for _ in range(3)]; c=c or 3
    add("reprRange",[a,b2,c],o(repr(range(a,b2,c))))
    n=random.choice([0,1,-1,127,128,-128,-129,255,256,2**31-1,2**31,-2**31,-2**31-1,2**63,random.getrandbits(random.randrange(1,3000)),-random.getrandbits(300)])
    import pickle
    add("encodeLong",[n],list(pickle.encode_long(n)))
    p=io.BytesIO(); P=pickle._Pickler(p,3); P.save(n); add("encInt",[n],list(p.getvalue()))
    b3=bytes(random.randrange(256) for _ in range(random.randrange(5))); add("fromBytes",[list(b3)],int.from_bytes(b3,'little',signed=True))
    s=rs("aé€😀\n",6)*random.choice([1,1,1,90])
    p=io.BytesIO(); P=pickle._Pickler(p,3); P.memoize=lambda o:None; P.save(s); add("encStr",[o(s)],list(p.getvalue()))
    p=io.BytesIO(); P=pickle._Pickler(p,4); P.memoize=lambda o:None; P.save(s); add("encStr4",[o(s)],list(p.getvalue()))
    s=rs("ab \t\n\r\x0c\x1c\x1f",12); add("expandtabs",[o(s)],o(s.expandtabs())); add("indentsize",[o(s)],inspect.indentsize(s))
    cl=rs("_AB",4); nm=rs("_ab",6)
    ns={}
    if cl and nm and cl.isidentifier() and nm.isidentifier():
        exec(f"class {cl}:\n  def f(self): return x.{nm}\nr=[c for c in {cl}.f.__code__.co_names]",ns); add("mangle",[o(cl),o(nm)],o(ns['r'][-1]))
    # C3
    classes=[object]; ok=[]
    k=random.randrange(2,7)
    for i in range(1,k+1):
        bs_=random.sample(range(len(classes)),min(len(classes),random.randrange(1,4)))
        seqs=[[classes.index(x) for x in classes[b].__mro__] for b in bs_]+[bs_]
        try: C=type("C",tuple(classes[b] for b in bs_),{}); m=[0 if x is object else classes.index(x) for x in C.__mro__[1:]]
        except TypeError: C=None; m=None
        add("merge",[seqs],m)
        if C: classes.append(C)
    # genops
    objs=[1,-5,300,70000,2**40,"x","é"*3,b"abc",1.5,None,True,(),(1,2),[1],{"a":1},len,{1,2},frozenset([3]),bytearray(b"x"),"a\nb\\"]
    d=pickle.dumps(random.choice(objs),random.randrange(6))
    pos=0
    for op,arg,ps in list(pickletools.genops(d)):
        pass
    ops=list(pickletools.genops(d))
    i=random.randrange(len(ops)); start=ops[i][2]; end=ops[i+1][2] if i+1<len(ops) else len(d)
    bs=bytearray(d[start:]); 
    if random.random()<.4 and bs: bs[random.randrange(len(bs))]=random.randrange(256)
    bs=bytes(bs[:random.randrange(1,len(bs)+1)])
    def step():
        g=pickletools.genops(bs)
        try:
            op,arg,_=next(g); 
        except ValueError: return None
        except StopIteration: return None
        try: e=next(g)[2]
        except ValueError: e=None
        except StopIteration: e=len(bs)
        return [op,arg,e]
    r=step(); add("readOp",[list(bs)],("op",None if r is None else [ord(r[0].code),r[1],r[2]],bs))
json.dump([[f,a,e if not(isinstance(e,tuple) and e[0]=="op") else ["op",None if e[1] is None else [e[1][0],repr(e[1][1]) if not isinstance(e[1][1],str) else e[1][1],e[1][2]],list(e[2])]] for f,a,e in cases],open("exp.json","w"))
with open("in.jsonl","w") as f:
    for c in cases: f.write(json.dumps({"f":c[0],"a":c[1]})+"\n")
