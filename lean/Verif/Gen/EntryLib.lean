import Verif.Gen.Entry
import Verif.Container.Inside
/-
What the functions of Gen/Entry call, out of the model: `compiler.CompileSchemaBytes`, `vm.Eval`, `container.NewReader`,
`container.NewWriter`, and the constructor and the method `Schema` of one generated type.
-/
namespace Verif
open Spec.GoE

/-- The errors of the functions: `json.Unmarshal` of a schema, the parser, the compiler, `vm.Eval`, `container.NewReader`. -/
inductive EntryErr where
  | json
  | schema (e : PErr)
  | compile (e : CErr)
  | eval (e : Err)
  | file

/-- `ParseSchema`, v10/compiler/compile.go:29-42, on bytes; `read` is `json.Unmarshal`. -/
def parseBytes (read : List Byte → Option Json) (b : List Byte) : Except EntryErr Schema :=
  match read b with
  | none => .error .json
  | some j => match parseSchema j with
    | .error e => .error (.schema e)
    | .ok s => .ok s

/-- `CompileSchemaBytes` without options, v10/compiler/compile.go:15-27. -/
def compileBytes (read : List Byte → Option Json) (ord : Orders) (writer reader : List Byte) : Except EntryErr Program :=
  match parseBytes read reader with
  | .error e => .error e
  | .ok r => match parseBytes read writer with
    | .error e => .error e
    | .ok w => match compile ord false w r with
      | .error e => .error (.compile e)
      | .ok p => .ok p

section
variable {R W : Type} (σ : Setting R) (L : Ocf.Libs)

/-- `vm.Eval` on an `io.Reader` of the caller or on a container reader. What the value and the reader are after an error is left open. -/
inductive EvalOn (re : Env) : R ⊕ Ocf.Reader R → Program → Tgt → Tgt → R ⊕ Ocf.Reader R → Option EntryErr → Prop where
  | plain {r p t t' r'} : Evaluates σ.ro (genOps re σ.lim σ.dv) p r t (.ok (r', t')) → EvalOn re (.inl r) p t t' (.inl r') none
  | plainErr {r p t t' r' e} : Evaluates σ.ro (genOps re σ.lim σ.dv) p r t (.error e) → EvalOn re (.inl r) p t t' (.inl r') (some (.eval e))
  | file {r p t t' r'} : Evaluates (σ.inside L).ro (genOps re σ.lim σ.dv) p r t (.ok (r', t')) → EvalOn re (.inr r) p t t' (.inr r') none
  | fileErr {r p t t' r' e} : Evaluates (σ.inside L).ro (genOps re σ.lim σ.dv) p r t (.error e) → EvalOn re (.inr r) p t t' (.inr r') (some (.eval e))

/-- `container.NewReader`. -/
inductive OpenOn : R ⊕ Ocf.Reader R → Except EntryErr (R ⊕ Ocf.Reader R) → Prop where
  | opened {r c} : Ocf.NewReader σ r (some c) → OpenOn (.inl r) (.ok (.inr c))
  | failed {r} : Ocf.NewReader σ r none → OpenOn (.inl r) (.error .file)

/-- Arguments and result of `container.NewWriter`. -/
inductive Thing (W : Type) where
  | sink (w : W)
  | codec (c : List Byte)
  | count (n : BitVec 64)
  | writer (E : Ocf.WEnv W) (s : Ocf.Writer L W)

/-- `container.NewWriter`, v10/container/writer.go:50-75. `E` has what the arguments do not determine. -/
inductive MakesWriter (E : Ocf.WEnv W) : Thing L W → Thing L W → Thing L W → List Byte → Thing L W → Option EntryErr → Prop where
  | made {w c n s} : MakesWriter E (.sink w) (.codec c) (.count n) s
      (.writer { E with codec := c, per := n, schema := s } (Ocf.newWriter { E with codec := c, per := n, schema := s } L w)) none

/-- The library of the type `name`, whose `Schema` method returns `schema` (read by the generator as `s`); `null`: it is a union with null. -/
def entryLib (read : List Byte → Option Json) (E : Ocf.WEnv W) (name : Str) (schema : List Byte) (s : Schema) (null : Bool) : Lib where
  Value := Tgt
  Reader := R ⊕ Ocf.Reader R
  Program := Verif.Program
  Error := EntryErr
  Other := Thing L W
  points _ := null
  new f t := f = newName name ∧ t = .new s.env s.root none
  text _ m b := m = "Schema".toList ∧ b = schema
  compile a b res := compileBytes read σ.ord a b = res
  eval r p t t' r' e := EvalOn σ L s.env r p t t' r' e
  openFile r res := OpenOn σ r res
  fileText r m b := m = "AvroContainerSchema".toList ∧ ∃ c, r = .inr c ∧ b = c.schema
  newWriter a b c s w e := MakesWriter L E a b c s w e

end
end Verif
