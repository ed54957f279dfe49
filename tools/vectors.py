import json,re
def lstr(s):
    out='"'
    for c in s:
        if c=='"': out+='\\"'
        elif c=='\\': out+='\\\\'
        elif c=='\n': out+='\\n'
        elif c=='\t': out+='\\t'
        elif ord(c)<32: out+='\\x%02x'%ord(c)
        else: out+=c
    return out+'"'
def J(v):
    if v is None: return '.null'
    if v is True: return '(.bool true)'
    if v is False: return '(.bool false)'
    if isinstance(v,int): return '(.num %s)'%(v if v>=0 else '(%d)'%v)
    if isinstance(v,float):
        import struct
        if v==int(v): return J(int(v))
        return '(.real 0x%016x#64)'%struct.unpack('>Q',struct.pack('>d',v))[0]
    if isinstance(v,str): return '(.str %s.toList)'%lstr(v)
    if isinstance(v,list): return '(.arr ['+', '.join(J(x) for x in v)+'])'
    return '(.obj ['+', '.join('(%s.toList, %s)'%(lstr(k),J(x)) for k,x in sorted(v.items()))+'])'
def L(s,n=16):
    if len(s)<=n: return lstr(s)+'.toList'
    return '('+' ++ '.join(lstr(s[i:i+n])+'.toList' for i in range(0,len(s),n))+')'
R='/repo/v10/'
ct=open(R+'schema/canonical/canonical_test.go').read()
inp=json.loads(re.search(r'const inputSchema = `(.*?)`',ct,re.S).group(1))
exp=re.search(r'const expected = `(.*?)`',ct,re.S).group(1)
hdr=json.load(open(R+'container/avro/header.avsc')); blk=json.load(open(R+'container/avro/block.avsc'))
hg=open(R+'container/avro/avro_container_header.go').read(); bg=open(R+'container/avro/avro_container_block.go').read()
def lit(g): return re.search(r'return ("\{.*\}")\n',g).group(1)
def fp(g): return re.search(r'Fingerprint = (".*")\n',g).group(1)
def schematree(g): return json.loads(json.loads(lit(g)))
ev=open(R+'schema/evolution_test.go').read()
cases=re.findall(r'\{`(.*?)`, `(.*?)`, (true|false)\}',ev)
print(len(cases))
o=[]
A=o.append
A('''import Verif.Props.Run
import Verif.Props.Text
import Verif.Props.Soe
import Verif.Gen.Files
import Verif.Parser.Write
import Verif.Gen.Command
import Verif.Generic.Decode
/-
The model against the program itself: outputs of gogen-avro that are in /repo, namely the generated files in
v10/container/avro and the expected values of its tests. These are tests of the transcription, not proofs of
properties. Long lines are copies. The objects are Go maps, so their entries are in the order of the keys.
-/
namespace Verif.Props.Vectors
open Verif Spec Spec.Go

/-- The schema that a document gives satisfies the test. -/
def onSchema (j : Json) (p : Schema → Bool) : Bool := match parseSchema j with
  | .ok s => p s
  | .error _ => false

/-- Two texts are the same to the Go compiler: `gofmt` moves spaces. -/
def sameTokens (a b : Str) : Bool := match tokens a, tokens b with
  | some x, some y => x == y
  | _, _ => false

/-! ### v10/schema/canonical/canonical_test.go, crc_test.go -/
''')
A('def interop : Json := %s\n'%J(inp))
A('example : onSchema interop (fun s => canonicalText s == some %s) = true := by decide +kernel\n'%L(exp))
for s,f in re.findall(r'\{`(.*?)`, "([0-9a-f]{16})"\}',open(R+'schema/canonical/crc_test.go').read()):
    bs=lambda b: '['+', '.join('0x%02x'%x for x in b)+']'
    A('example : Crc.avroCRC64Fingerprint %s = %s := by decide +kernel'%(bs(s.encode()),bs(bytes.fromhex(f))))
A('\n/-! ### v10/generator/util_test.go -/\n')
ut=open(R+'generator/util_test.go').read()
for a,b in re.findall(r'name:\s+"(.*?)",\s+expected: "(.*?)"',ut): A('example : toPublicName "%s".toList = "%s".toList := by decide +kernel'%(a,b))
for a,b in re.findall(r'\{"(.*?)", "(.*?)"\}',ut): A('example : toSnake "%s".toList = "%s".toList := by decide +kernel'%(a,b))
A('\n/-! ### v10/cmd/gogen-avro/main_test.go -/\n')
mt=open(R+'cmd/gogen-avro/main_test.go').read()
for fs,b,t in re.findall(r'\{\[\]string\{(.*?)\}, (true|false), `(.*?)`\}',mt,re.S):
    A('example : codegenComment %s [%s] = %s.toList := by decide +kernel'%(b,', '.join(x.strip()+'.toList' for x in fs.split(',')),lstr(t)))
A('\n/-! ### v10/soe/soe_test.go -/\n')
A('''example : (Soe.writeRecord ⟨[0x0c, 0x94, 0x7f, 0x60, 0x1d, 0xe7, 0xce, 0x84], ([], true)⟩).1.flatten =
    [0xc3, 0x01, 0x0c, 0x94, 0x7f, 0x60, 0x1d, 0xe7, 0xce, 0x84] := by decide +kernel
example : (match Soe.readHeader Soe.whole [0xc3, 0x01, 0x7f, 0x60, 0x1d, 0xe7, 0xce, 0x84, 0x01, 0x02, 0x03] with
    | .ok (h, rest) => h == [0x7f, 0x60, 0x1d, 0xe7, 0xce, 0x84, 0x01, 0x02] && rest.length == 1
    | .error _ => false) = true := by decide +kernel
''')
A('/-! ### v10/schema/evolution_test.go -/\n')
A('''/-- `IsReadableBy` of the schemas of two documents. -/
def readable (w r : Json) : Option Bool := match parseSchema w, parseSchema r with
  | .ok s, .ok t => some (s.root.readableBy s.env t.env t.root)
  | _, _ => none
''')
for w,r,b in cases:
    A('example : readable %s %s = some %s := by decide +kernel'%(J(json.loads(w)),J(json.loads(r)),b))
A('''
/-! ### v10/generic/record_test.go -/

mutual
/-- Whether two values are the same. -/
def same : GVal → GVal → Bool
  | .nil, .nil => true
  | .bool a, .bool b => a == b
  | .int a, .int b => a == b
  | .long a, .long b => a == b
  | .bytes a, .bytes b => a == b
  | .string a, .string b => a == b
  | .symbol a, .symbol b => a == b
  | .list a, .list b => sames a b
  | .map a, .map b => sameEntries a b
  | .record a, .record b => sameFields a b
  | _, _ => false
def sames : List GVal → List GVal → Bool
  | [], [] => true
  | a :: l, b :: l' => same a b && sames l l'
  | _, _ => false
def sameEntries : List (List Byte × GVal) → List (List Byte × GVal) → Bool
  | [], [] => true
  | (k, a) :: l, (k', b) :: l' => k == k' && same a b && sameEntries l l'
  | _, _ => false
def sameFields : List (Str × GVal) → List (Str × GVal) → Bool
  | [], [] => true
  | (k, a) :: l, (k', b) :: l' => k == k' && same a b && sameFields l l'
  | _, _ => false
end

/-- `NewCodecFromSchema(s, s)` and `Deserialize`. -/
def decodes (j : Json) (data : List Byte) (v : GVal) : Bool := onSchema j fun s =>
  match compileFuel 20 Orders.id false s s with
  | .error _ => false
  | .ok prog => match evalProg (demo true).ro (gOps s.env (demo true).lim) prog 200 [data] (.new s.env s.root) with
    | .done (_, t) => match t.datum with
      | some g => same g v
      | none => false
    | _ => false
''')
gt=open(R+'generic/record_test.go').read()
docs=[json.loads(x) for x in re.findall(r'\[\]byte\(`(.*?)`\)',gt,re.S)]
prim,comp,uni,enum,lst=docs
def D(d,b,v): A('example : decodes %s [%s] %s = true := by decide +kernel'%(J(d),', '.join(str(x) for x in b),v))
def S(s): return '['+', '.join(str(x) for x in s.encode())+']'
D(prim,[2,4,104,105],'(.record [("intfield".toList, .int 1), ("bytesfield".toList, .bytes [104, 105])])')
D(comp,[2,6,107,101,121,7,0,4,2,97,2,98,0],'(.record [("mapfield".toList, .map [([107, 101, 121], .int (-4))]), ("arrayfield".toList, .list [.string [97], .string [98]])])')
D(uni,[0,2],'(.int 1)'); D(uni,[2,4],'(.long 2)'); D(uni,[4,4,104,105],'(.string [104, 105])')
D(enum,[2],'(.symbol "TWO".toList)'); D(enum,[4],'(.symbol "THREE".toList)')
D(lst,[0,1],'(.record [("next".toList, .nil), ("val".toList, .int (-1))])')
D(lst,[2,0,4,2],'(.record [("next".toList, .record [("next".toList, .nil), ("val".toList, .int 2)]), ("val".toList, .int 1)])')
A('''
/-! ### v10/container/avro: what `gogen-avro --package avro . block.avsc header.avsc` wrote -/
''')
A('def block : Json := %s'%J(blk)); A('def header : Json := %s\n'%J(hdr))
A('''/-- The command read both documents. -/
def onBoth (p : NS → Bool) : Bool := match parseCommand false [block, header] with
  | .ok n => p n
  | .error _ => false

/-- The files. -/
example : onBoth (fun n => let fs := (generate .simple false n).map Prod.fst
    ["avro_container_block.go", "avro_container_header.go", "bytes.go", "magic.go", "map_bytes.go", "sync.go"].all (fun f => fs.contains f.toList) &&
      fs.length == 6) = true := by decide +kernel

/-- ASCII, and the letter in the fingerprint of a block. -/
def isPrint (c : Char) : Bool := asciiPrint c || c == '\\u0654'

/-- The record of that name satisfies the test. -/
def onRecord (name : String) (p : NS → PDef → List PField → Str → Bool) : Bool := onBoth fun n => match n.find ⟨[], name.toList⟩ with
  | some d => match d.kind with
    | .record fs doc => p n d fs doc
    | _ => false
  | none => false
''')
for name,g,doc in (("AvroContainerBlock",bg,blk),("AvroContainerHeader",hg,hdr)):
    A('/-- The tree of the text that `Schema()` returns there. -/')
    A('def schemaOf%s : Json := %s\n'%(name,J(schematree(g))))
    A('example : onRecord "%s" (fun n d _ _ => (recordSchema n d).any (Json.beq schemaOf%s)) = true := by decide +kernel'%(name,name))
    st=re.search(r'type %s struct \{.*?\n\}\n'%name,g,re.S).group(0)
    A('example : onRecord "%s" (fun n d fs doc => sameTokens (structText .simple n isPrint (d.goName .simple) doc fs)\n    %s) = true := by decide +kernel'%(name,L(st)))
    A('example : onRecord "%s" (fun n d _ _ => ((recordFingerprint ⟨n.env, .ref d.name⟩).any fun f => fingerprintText isPrint (d.goName .simple) f ==\n    %s.toList)) = true := by decide +kernel'%(name,lstr('\nconst %sAvroCRC64Fingerprint = %s\n'%(name,fp(g)))))
    txt=re.search(r'func \(r %s\) Schema\(\) string \{\n.*?\n\}\n'%name,g,re.S).group(0)
    A('example : schemaText isPrint "%s".toList (utf8 %s) =\n    %s := by decide +kernel'%(name,L(json.loads(lit(g))),L('\n'+txt)))
A('example : sameTokens (fixedText "Magic".toList 4) "type Magic [4]byte\\n".toList = true := by decide +kernel')
A('\nend Verif.Props.Vectors')
open('/verif/lean/Verif/Props/Vectors.lean','w').write('\n'.join(o)+'\n')
