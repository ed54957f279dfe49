import json,re,os,subprocess,glob,sys
sys.path.insert(0,'/verif/tools')
src=open('/verif/tools/vectors.py').read().split("R='/repo")[0]
exec(src)
T='/repo/v10/test/'
jobs=[]
for g in sorted(glob.glob(T+'*/generate.go'))+['/repo/v10/example/generate.go','/repo/v10/container/generate.go']:
    if not os.path.exists(g): continue
    d=os.path.dirname(g)
    for line in open(g):
        m=re.match(r'//go:generate \S*gogen-avro (.*)',line)
        if not m: continue
        a=m.group(1).split(); nm='simple';cont=False;short=False;i=0
        while a[i].startswith('-'):
            f=a[i].lstrip('-')
            if f.startswith('namespaced-names'):
                if '=' in f: v=f.split('=')[1]
                else: i+=1; v=a[i]
                nm='(.namespaced %s)'%('true' if v=='short' else 'false')
            elif f=='containers': cont=True
            elif f=='short-unions': short=True
            elif f.startswith('package'):
                if '=' not in f: i+=1
            else: print('??',a)
            i+=1
        if nm=='simple': nm='.simple'
        files=[os.path.join(d,x) for x in a[i+1:]]
        out=os.path.join(d,a[i])
        if not all(os.path.exists(f) for f in files): print('missing',files); continue
        jobs.append((out,nm,cont,short,files))
if __name__=='__main__':
    o=['''import Verif.Props.Vectors
open Verif Spec Spec.Go Verif.Props
partial def sh : Json → String
 | .null => "null" | .bool b => toString b | .num n => toString n | .real b => s!"R{b}" | .str s => String.quote (String.ofList s)
 | .arr l => "[" ++ ",".intercalate (l.map sh) ++ "]"
 | .obj l => "{" ++ ",".intercalate (l.map fun (k,v) => String.quote (String.ofList k) ++ ":" ++ sh v) ++ "}"
def pr (c : Char) : Bool := asciiPrint c || c.toNat ≥ 0xa1
def q (s : Str) : String := String.quote (String.ofList s)
def emitS (a b : String) (s : Str) : IO Unit := IO.println s!"{a}|{b}|{q s}"
def bodyOut (nm : Namer) (n : NS) (f : Str) (b : Body) : IO Unit := do
  match b with
  | .container _ => pure ()
  | .ty (.union s ts d) => do
     let name := (PTy.union s ts d).goName nm n
     emitS "T" (String.ofList f) (unionStructText nm n name ts)
     emitS "T" (String.ofList f) (unionConstText nm n name ts)
     IO.println s!"S|{String.ofList f}|{((unionSchema n ts).map sh).getD "NONE"}"
  | .ty _ => pure ()
  | .defn d => match d.kind with
    | .record fs doc => do
      emitS "T" (String.ofList f) (structText nm n pr (d.goName nm) doc fs)
      match recordFingerprint ⟨n.env, .ref d.name⟩ with
      | some fp => emitS "T" (String.ofList f) (fingerprintText pr (d.goName nm) fp)
      | none => IO.println "NOFP"
      emitS "T" (String.ofList f) (schemaNameText pr (d.goName nm) (utf8 d.name.str))
      IO.println s!"S|{String.ofList f}|{((recordSchema n d).map sh).getD "NONE"}"
      for x in fs do emitS "T" (String.ofList f) (marshalText nm pr x)
    | .enum syms doc dv => do
      emitS "T" (String.ofList f) (enumText nm (d.goName nm) doc syms)
      emitS "T" (String.ofList f) (stringText nm pr (d.goName nm) syms)
      emitS "T" (String.ofList f) (valueText nm pr (d.goName nm) dv syms)
    | .fixed k => emitS "T" (String.ofList f) (fixedText (d.goName nm) (k : Int).toNat)
def job (nm : Namer) (cont short : Bool) (js : List Json) : IO Unit :=
  match parseCommand short js with
  | .error _ => IO.println "ERROR"
  | .ok n => do
    for (f, b) in generate nm cont n do
      IO.println s!"F|{String.ofList f}|"
      bodyOut nm n f b
''']
    for k,(out,nm,cont,short,files) in enumerate(jobs):
        o.append('#eval IO.println "J|%d|"'%k)
        o.append('#eval job %s %s %s [%s]'%(nm,str(cont).lower(),str(short).lower(),', '.join(J(json.load(open(f))) for f in files)))
    open('/tmp/C.lean','w').write('\n'.join(o)+'\n')
