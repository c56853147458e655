import random,json,os,sys,tempfile,errno,io
random.seed(int(sys.argv[1])); cases=[]
def add(f,a,e): cases.append((f,a,e))
names=list("abcdefgh")
def resized(d,k,v):
    s=sys.getsizeof(d); return
for _ in range(1500):
    n=random.randrange(1,7)
    init=[(names[i],i) for i in range(n)]
    d=dict(init)
    sched=[]; res=[]
    it=iter(d.items())
    t=0; val=50
    while True:
        ops=[]
        if random.random()<.35:
            for _ in range(random.randrange(1,4)):
                k=random.choice(names+["z%d"%val]); val+=1
                if random.random()<.5 and k in d:
                    del d[k]; ops.append(["d",k])
                else:
                    new=k not in d
                    # detect whether this insert resizes: entries used up? (usable==0) track by getsizeof of keys table cannot see a same-size resize; track manually
                    ops.append(["a",k,val,0,new]); d[k]=val
        sched.append(ops)
        try: res.append(list(next(it)))
        except StopIteration: break
        except RuntimeError: res="RuntimeError"; break
        t+=1
    cases.append(("snap",[init,sched],res))
# resize model: replay with a table of usable entries
def usable(log2): return ((1<<log2)<<1)//3
out=[]
for f,a,e in cases:
    init,sched=a
    # build dict by literal dict(list): emulates inserts one at a time from empty
    def newtab(log2): return {"log2":log2,"n":0}
    used=0; nent=0; log2=3; empty=True
    keys=set()
    def insert_new():
        global used,nent,log2,empty
        r=0
        if empty: empty=False; log2=3; nent=0
        elif nent>=usable(log2):
            # GROWTH_RATE used*3
            import math
            size=used*3; l=3
            while (1<<l)<size: l+=1
            log2=l; nent=used; r=1
        nent+=1; used+=1
        return r
    for k,v in init: insert_new(); keys.add(k)
    for ops in sched:
        for o in ops:
            if o[0]=="d": used-=1; keys.discard(o[1])
            else:
                if o[4]: 
                    o[3]=insert_new(); keys.add(o[1])
                del o[4]
    out.append((f,a,e))
cases=out
for _ in range(1000):
    classes=[object]; 
    for i in range(random.randrange(2,6)):
        while True:
            bs=random.sample(classes,min(len(classes),random.randrange(1,4)))
            ns={k:1000+random.randrange(500) for k in ["x","y","__self__","__thisclass__"] if random.random()<.15}
            try: classes.append(type("C%d"%i,tuple(bs),ns)); break
            except TypeError: pass
    k=len(classes)
    insts=[]
    for j in range(3):
        insts.append(random.choice(classes[1:])())
    objs=classes+insts
    idx=lambda o: next((i for i,p in enumerate(objs) if p is o),None)
    mro=[[idx(c) for c in C.__mro__] for C in classes]
    dic=[[i,n,C.__dict__[n]] for i,C in enumerate(classes) if i for n in ["x","y","__self__","__thisclass__"] if n in C.__dict__]
    objs_ty=[99]*k+[idx(type(o)) for o in insts]
    this=random.randrange(1,k); ob=random.randrange(1,len(objs)); nm=random.choice(["x","y","__self__","__thisclass__","__self_class__","zz"])
    try:
        s=super(classes[this],objs[ob])
        try:
            v=getattr(s,nm); e=v if isinstance(v,int) else idx(v)
        except AttributeError: e="AttributeError"
    except TypeError: e="TypeError"
    add("sup",[mro,dic,objs_ty,this,ob,nm],e)
for _ in range(600):
    with tempfile.TemporaryDirectory() as d:
        ents=[]; ino={}
        for p in ["p","q","r"]:
            x=random.random()
            if x<.35: 
                i=random.randrange(10,90)
                while i in ino.values(): i+=1
                ino[p]=i; ents.append([p,"f",i]); open(os.path.join(d,p),"wb").write(bytes([i]))
            elif x<.75:
                t=random.choice(["p","q","r","s"]); ents.append([p,"l",t]); os.symlink(t,os.path.join(d,p))
        fl=[f for f in ["creat","excl","trunc","nofollow"] if random.random()<.5]
        if "excl" in fl and "creat" not in fl: fl.remove("excl")
        F=os.O_RDWR
        for f in fl: F|={"creat":os.O_CREAT,"excl":os.O_EXCL,"trunc":os.O_TRUNC,"nofollow":os.O_NOFOLLOW}[f]
        real={os.stat(os.path.join(d,p)).st_ino:i for p,i in ino.items()}
        p=random.choice(["p","q","r"])
        try:
            fd=os.open(os.path.join(d,p),F)
            i=real.get(os.fstat(fd).st_ino,100)
            e=[i,list(os.read(fd,10))]; os.close(fd)
        except OSError as x: e=errno.errorcode[x.errno]
        add("sopen",[ents,p,fl],e)
for _ in range(300):
    s=''.join(random.choice("a\r\n") for _ in range(random.randrange(10)))
    add("univ",[s],io.TextIOWrapper(io.BytesIO(s.encode()),newline=None).read())
    b=io.BytesIO(); w=[]
    for _ in range(random.randrange(5)):
        p=random.randrange(8); c=[random.randrange(256) for _ in range(random.randrange(1,4))]
        b.seek(p); b.write(bytes(c)); w.append([p,c])
    add("buf",[w],list(b.getvalue()))
json.dump(cases,open("exp.json","w"))
with open("in.jsonl","w") as f:
    for c in cases: f.write(json.dumps({"f":c[0],"a":c[1]})+"\n")
