import io,contextlib
src=open('/verif/tools/corpus.py').read().split("if __name__")[0]
with contextlib.redirect_stdout(io.StringIO()): exec(src)
A=[]
o=A.append
o('''import Verif.Props.Vectors
/-
More outputs of the program: the generated code in v10/test. For each directory, the files the model says are written
are those that are there (but for two left from an older version), and for some the declarations in them too. Tests
of the transcription, not proofs of properties. Long lines are copies.
-/
namespace Verif.Props.Corpus
open Verif Spec Spec.Go Vectors

/-- The command wrote these files. -/
def wrote (nm : Namer) (containers short : Bool) (docs : List Json) (files : List String) : Bool :=
  match parseCommand short docs with
  | .error _ => false
  | .ok n => let fs := (generate nm containers n).map Prod.fst
    fs.length == files.length && files.all fun f => fs.contains f.toList

/-- In the file of that name the command put the declarations of this list. -/
def wroteIn (nm : Namer) (containers short : Bool) (docs : List Json) (print : Char → Bool) (file : String) (texts : List Str) : Bool :=
  match parseCommand short docs with
  | .error _ => false
  | .ok n => match (generate nm containers n).find? (fun e => e.1 == file.toList) with
    | none => false
    | some (_, .container _) => false
    | some (_, .ty (.union s ts d)) =>
      let name := (PTy.union s ts d).goName nm n
      all [unionStructText nm n name ts, unionConstText nm n name ts] texts
    | some (_, .ty _) => false
    | some (_, .defn d) => match d.kind with
      | .record fs doc => match recordFingerprint ⟨n.env, .ref d.name⟩ with
        | some fp => all [structText nm n print (d.goName nm) doc fs, fingerprintText print (d.goName nm) fp,
            schemaNameText print (d.goName nm) (utf8 d.name.str)] texts
        | none => false
      | .enum syms doc dv => all [enumText nm (d.goName nm) doc syms, stringText nm print (d.goName nm) syms,
          valueText nm print (d.goName nm) dv syms] texts
      | .fixed k => all [fixedText (d.goName nm) k.toNat] texts
where
  all : List Str → List Str → Bool
    | [], [] => true
    | a :: l, b :: l' => sameTokens a b && all l l'
    | _, _ => false

/-- The characters above ASCII in these files that are not escaped. -/
def shown (c : Char) : Bool := asciiPrint c || c.toNat ≥ 0xa1
''')
STALE={('name-conflict','bytes.go'),('union','union_string_long_int_float_double_null_bool.go')}
FULL={'namespace-short','union-short','enum-default/evolution','fixed','go-struct-tags','enum-multiple-namespaces','lax-names'}
for k,(out,nm,cont,short,files) in enumerate(jobs):
    rel=os.path.relpath(os.path.normpath(out),'/repo/v10/test')
    act=sorted(os.path.basename(f) for f in glob.glob(out+'/*.go') if 'DO NOT EDIT' in open(f).read(200))
    act=[f for f in act if (rel,f) not in STALE]
    ident='d_'+re.sub(r'\W','_',rel)
    o('/-- v10/test/%s -/'%', '.join(os.path.relpath(f,'/repo/v10/test') for f in files))
    o('def %s : List Json := [%s]'%(ident,', '.join(J(json.load(open(f))) for f in files)))
    arg='%s %s %s %s'%(nm,str(cont).lower(),str(short).lower(),ident)
    o('example : wrote %s\n    [%s] = true := by decide +kernel'%(arg,', '.join('"%s"'%f for f in act)))
    if rel in FULL:
        for f in act:
            t=open(os.path.join(out,f)).read()
            if f.endswith('_container.go'): continue
            tx=[]
            m=re.search(r'\n(type (\w+) \[\d+\]byte)\n',t)
            e=re.search(r'\n(type (\w+) int32\n\nconst \(.*?\n\)\n)',t,re.S)
            u=re.search(r'\n(type (\w+)TypeEnum int\n\nconst \(.*?\n\)\n)',t,re.S)
            if m: tx=[m.group(1)+'\n']
            elif e:
                n=e.group(2)
                tx=[e.group(1),re.search(r'func \(e %s\) String\(\) string \{.*?\n\}\n'%n,t,re.S).group(0),re.search(r'func New%sValue\(.*?\n\}\n'%n,t,re.S).group(0)]
            elif u:
                n=u.group(2)
                tx=[re.search(r'type %s struct \{.*?\n\}\n'%n,t,re.S).group(0),u.group(1)]
            else:
                m=re.search(r'\ntype (\w+) struct \{.*?\n\}\n',t,re.S)
                if not m or 'Wrapper' in m.group(1): continue
                n=m.group(1)
                tx=[m.group(0),re.search(r'const %sAvroCRC64Fingerprint = .*\n'%n,t).group(0),re.search(r'func \(r \*?%s\) SchemaName\(\) string \{.*?\n\}\n'%n,t,re.S).group(0)]
            o('example : wroteIn %s shown "%s" [%s] = true := by decide +kernel'%(arg,f,',\n    '.join(L(x) for x in tx)))
o('\nend Verif.Props.Corpus')
open('/verif/lean/Verif/Props/Corpus.lean','w').write('\n'.join(A)+'\n')
