import sys,re,json,os,glob
sys.argv=['x']
src=open('/verif/tools/corpus.py').read().split("if __name__")[0]
import io,contextlib
with contextlib.redirect_stdout(io.StringIO()): exec(src)
def unq(s):
    s=s[1:-1];o='';i=0
    while i<len(s):
        if s[i]=='\\':
            c=s[i+1]
            if c=='x': o+=chr(int(s[i+2:i+4],16)); i+=4; continue
            if c=='u': o+=chr(int(s[i+2:i+6],16)); i+=6; continue
            o+={'n':'\n','t':'\t','r':'\r'}.get(c,c); i+=2
        else: o+=s[i]; i+=1
    return o
norm=lambda t: re.sub(r'\s+','',t)
cur=None;files={};nT=nS=nok=0
def flush():
    if cur is None: return
    out=jobs[cur][0]
    act={os.path.basename(f) for f in glob.glob(out+'/*.go') if 'DO NOT EDIT' in open(f).read(200)}
    if act!=set(files): print('FILES',out,'only repo:',act-set(files),'only model:',set(files)-act)
    else: globals().__setitem__('nok',nok+1)
for line in open('/tmp/out.txt'):
    line=line.rstrip('\n')
    if not line: continue
    k,a,b=line.split('|',2)
    if k=='J': flush(); cur=int(a); files={}
    elif k=='F': files[a]=1
    else:
        p=os.path.join(jobs[cur][0],a)
        if not os.path.exists(p): continue
        t=open(p).read()
        if k=='T':
            nT+=1
            if norm(unq(b)) not in norm(t): print('TEXT',p,repr(unq(b))[:600])
        elif k=='S':
            nS+=1
            m=re.search(r'Schema\(\) string \{\n\s*return (".*")\n',t)
            if not m: print('NOSCHEMA',p); continue
            try: lit=json.loads(m.group(1))
            except Exception: lit=m.group(1)[1:-1].encode().decode('unicode_escape').encode('latin1','replace').decode('utf8','replace')
            w=json.loads(lit)
            # model prints real bits R...
            import struct
            b=re.sub(r'R0x([0-9a-f]+)#64',lambda m:repr(struct.unpack('>d',bytes.fromhex(m.group(1)))[0]),b)
            b=re.sub(r'\\x([0-9a-f]{2})',r'\\u00\1',b)
            try: v=json.loads(b)
            except Exception as e: print('PARSE',p,b[:200]); continue
            if v!=w: print('SCHEMA',p,'\n  model',b,'\n  repo ',lit)
            if list(w)!=list(v): print('ORDER',p)
flush()
print(nT,'texts',nS,'schemas',nok,'of',len(jobs),'file sets equal')
