import Verif.Gen.JsonCodeText
import Verif.Gen.JsonCodeMarshal
import Verif.Gen.JsonCodeUnmarshal
import Verif.Props.DefaultCode
import Verif.Props.Text
/-
Property C102: the JSON methods that are generated. The text of `MarshalJSON` and of `UnmarshalJSON` of every generated type is that of a Go program
to whose variables the compiler has no objection, and, run as a Go program, it does what C70 to C72 say `json.Marshal` and `json.Unmarshal` do with values
of the type. `json.Marshal` and `json.Unmarshal` of the parts of a value are here those of C70 to C72.

Spec/GoJson has the statements, their tokens, and what they do.
-/
namespace Verif.Props
open Verif Spec Spec.Go Spec.GoD Spec.GoJ

variable {P : Spec.GoD.Package} {print : Char → Bool} {ctor set : QName → Str}

/-! ### Readability of the default statements -/

theorem ctor_readable (nm : Namer) (n : NS) (t : PTy) : Readable (ctorSts nm n t) := by
  intro s hs
  unfold ctorSts at hs
  split at hs
  · cases hs
  · rcases List.mem_singleton.1 hs with rfl
    trivial

/-- The defaults in `UnmarshalJSON` are those in the constructor. -/
theorem reads_readable {k g : Nat} : ∀ {fs : List PField} {L : Sts} {l : List USt}, newSts P.nm P.n k fs = .ok L → fieldReads P.nm P.n g fs = .ok l →
    Readable L → UReadable l
  | [], _, _, _, h, _, s, hs => by cases h; cases hs
  | f :: fs, L, l, hN, h, hR, s, hs => by
    rw [newSts] at hN
    obtain ⟨a, n1, hN⟩ := bind_ok hN
    obtain ⟨r, n2, hN⟩ := bind_ok hN
    cases hN
    rw [freshSts] at n1
    obtain ⟨a', n3, n1⟩ := bind_ok n1
    cases n1
    rw [fieldReads] at h
    obtain ⟨e, h1, h⟩ := bind_ok h
    obtain ⟨r', h2, h⟩ := bind_ok h
    cases h
    obtain ⟨r1, r2⟩ := readable_append hR
    rcases List.mem_cons.1 hs with rfl | hs
    · trivial
    · rcases List.mem_cons.1 hs with rfl | hs
      · show e.Readable
        unfold elseSts at h1
        cases hd : f.dflt with
        | none => rw [hd] at h1; cases h1; trivial
        | some j =>
          rw [hd] at h1
          obtain ⟨M, h3, h1⟩ := bind_ok h1
          cases h1
          have e1 : dfltSts P.nm P.n g f = .ok M := by unfold dfltSts; rw [hd]; exact h3
          have := (readable_append (readable_under r1)).2
          rw [← mapM_dflt e1 n3] at this
          refine readable_map _ fun x hx => ?_
          rcases List.mem_append.1 hx with hx | hx
          · exact ctor_readable _ _ _ x hx
          · exact this x hx
      · exact reads_readable n2 h2 r2 s hs

/-! ### Records -/

/-- C102, `MarshalJSON` of a record: its text is that of a program, and the program writes what C70 says. -/
theorem record_marshal_code (hp : Printing print) (hL : Legal P) {q : QName} {d : PDef} {fs : List PField} {doc : Str} (hq : P.n.find q = some d)
    (hk : d.kind = .record fs doc) :
    ∃ body, tokens (recordMarshalText P.nm print (d.goName P.nm) fs) = some (marshalToks "r".toList (.named (d.goName P.nm)) body) ∧ MAccepted body ∧
      ∀ E vs, vs.length = fs.length → mrun P (theMarshal P) E (.ref q) (.record vs) {} body = marshal P.n.env (.record vs) (.ref q) := by
  refine ⟨recordMarshal P.nm fs, ?_, recordMarshal_accepted _ _, fun E vs hl => record_marshal hq hk (hL.apart q d fs doc hq hk) hl⟩
  exact recordMarshal_tokens P.nm hp (publicName_exported P.nm (hL.defs q d hq)) fun f hf => ⟨(hL.fields q d fs doc hq hk f hf).1, (hL.fields q d fs doc hq hk f hf).2.1⟩

/-- C102, `UnmarshalJSON` of a record: its text is that of a program, and the program leaves in the record what C71 and C72 say, and refuses what
they say is refused. `bodies` are the statements of the constructors, which the defaults of its fields call. The text can be read if the constructor of the
record returns. -/
theorem record_unmarshal_code (hp : Printing print) (hL : Legal P) (hE : Emitted P print ctor set) {q : QName} {d : PDef} {fs : List PField} {doc : Str}
    (hq : P.n.find q = some d) (hk : d.kind = .record fs doc) {k : Nat} {s : Str} (hs : recordUnmarshalText P.nm P.n print k (d.goName P.nm) fs = .ok s) :
    ∃ (bodies : QName → List Spec.GoD.St) (body : List USt),
      (∀ q' d' fs' doc' vs, P.n.find q' = some d' → d'.kind = .record fs' doc' → New P.nm P.n.env q' vs →
        tokens (ctor q') = some (constructorToks (d'.goName P.nm) (bodies q'))) ∧
      (∀ vs, New P.nm P.n.env q vs → tokens s = some (unmarshalToks "r".toList (.pointer (.named (d.goName P.nm))) body)) ∧ UAccepted body ∧
      ∀ E data cur, (∀ vs, cur = .record vs → vs.length = fs.length) →
        (∀ v, (∃ n m, urun P (theUnmarshal P n) (makes P bodies m) E (.ref q) data { r := struct P (.ref q) cur } body = .ok v) ↔
          ∃ n, unmarshal P.nm P.n.env n data (.ref q) cur = .ok v) ∧
        ((∃ n m, urun P (theUnmarshal P n) (makes P bodies m) E (.ref q) data { r := struct P (.ref q) cur } body = .error .refused) ↔
          ∃ n, unmarshal P.nm P.n.env n data (.ref q) cur = .error .refused) := by
  obtain ⟨bodies, hG, hT⟩ := emitted_generated hp hL hE
  have ht := recordUnmarshal_tokens P.nm hp hL.fields k (publicName_exported P.nm (hL.defs q d hq)) (hL.fields q d fs doc hq hk)
  have e0 : d.goName P.nm = P.nm.publicName d.name.str := rfl
  rw [← e0, hs] at ht
  cases e : recordUnmarshal P.nm P.n k fs with
  | error e' => rw [e] at ht; exact ht.elim
  | ok body =>
    rw [e] at ht
    refine ⟨bodies, body, fun q' d' fs' doc' vs hq' hk' hN => ?_, fun vs hN => ht ?_, recordUnmarshal_accepted _ _ _ e, fun E data cur hc => ⟨fun v => ?_, ?_⟩⟩
    · obtain ⟨m, hv⟩ := (makes_iff hG hq' hk' (.record vs)).2 hN
      exact hT q' d' fs' doc' hq' hk' (makes_readable hL hq' hk' hv)
    · obtain ⟨m, hv⟩ := (makes_iff hG hq hk (.record vs)).2 hN
      have hR := makes_readable hL hq hk hv
      obtain ⟨g, hg⟩ := hG.bodies q d fs doc hq hk
      unfold recordUnmarshal at e
      obtain ⟨l, hl, e⟩ := bind_ok e
      cases e
      have := reads_readable hg hl hR
      intro x hx
      rcases List.mem_cons.1 hx with rfl | hx
      · trivial
      rcases List.mem_cons.1 hx with rfl | hx
      · trivial
      rcases List.mem_append.1 hx with hx | hx
      · split at hx
        · cases hx
        · rcases List.mem_singleton.1 hx with rfl; trivial
      rcases List.mem_append.1 hx with hx | hx
      · exact this x hx
      · rcases List.mem_singleton.1 hx with rfl; trivial
    · constructor
      · rintro ⟨n, m, h⟩
        obtain ⟨n', h'⟩ := record_back hG hq hk e hc (dn := n) (m := m) (by rw [h]; intro e he; cases he)
        exact ⟨n', by rw [h' n' (Nat.le_refl _), h]⟩
      · rintro ⟨n, h⟩
        obtain ⟨m, h'⟩ := record_forth hG (E := E) hq hk e hc (dn := n) (by rw [h]; intro e he; cases he)
        exact ⟨n, m, by rw [h' m (Nat.le_refl _), h]⟩
    · constructor
      · rintro ⟨n, m, h⟩
        obtain ⟨n', h'⟩ := record_back hG hq hk e hc (dn := n) (m := m) (by rw [h]; intro e he; cases he)
        exact ⟨n', by rw [h' n' (Nat.le_refl _), h]⟩
      · rintro ⟨n, h⟩
        obtain ⟨m, h'⟩ := record_forth hG (E := E) hq hk e hc (dn := n) (by rw [h]; intro e he; cases he)
        exact ⟨n, m, by rw [h' m (Nat.le_refl _), h]⟩

/-! ### Unions -/

/-- The names of the members are different in Go, there are no more than fit the number of a member, and none of them is a union. -/
structure UnionLegal (P : Spec.GoD.Package) (ts : List PTy) : Prop where
  apart : (ts.map (PTy.goName P.nm P.n)).Nodup
  few : ts.length < 2 ^ 63
  keys : ∀ u ∈ ts, (unionKey P.n.env u.erase).isSome = true

/-- C102, `MarshalJSON` of a union. A union with null is a pointer, which may be nil. -/
theorem union_marshal_code {name : Str} {ts : List PTy} {ds : List Json} (ht : NamedTy P.n (.union name ts ds)) (hU : UnionLegal P ts) :
    ∃ body, tokens (unionMarshalText P.nm P.n ((PTy.union name ts ds).goName P.nm P.n) ((PTy.union name ts ds).goType P.nm P.n) ts) =
        some (marshalToks "r".toList (goTypeOf P.nm P.n (.union name ts ds)) body) ∧ MAccepted body ∧
      (∀ E tag v, mrun P (theMarshal P) E (.union name ts ds) (.union tag (some v)) {} body = marshal P.n.env (.union tag (some v)) (PTy.erase (.union name ts ds))) ∧
      ((nullAt 0 ts).isSome = true → ∀ E, mrun P (theMarshal P) E (.union name ts ds) .nil {} body = marshal P.n.env .nil (PTy.erase (.union name ts ds))) :=
  ⟨_, unionMarshal_tokens P.nm P.n ht, unionMarshal_accepted _ _ _ _ _, fun _ _ _ => union_marshal _ hU.apart hU.few hU.keys, fun hN _ => union_marshal_nil _ _ hN⟩

/-- C102, `UnmarshalJSON` of a union. encoding/json does not call it on a pointer for null. -/
theorem union_unmarshal_code {name : Str} {ts : List PTy} {ds : List Json} (ht : NamedTy P.n (.union name ts ds)) (hU : UnionLegal P ts) :
    ∃ body, tokens (unionUnmarshalText P.nm P.n ((PTy.union name ts ds).goType P.nm P.n) ts) =
        some (unmarshalToks "r".toList (.pointer (.named ((PTy.union name ts ds).goName P.nm P.n))) body) ∧ UAccepted body ∧
      ∀ new E data dn cur, (data = .null → (nullAt 0 ts).isSome = false) →
        urun P (theUnmarshal P dn) new E (.union name ts ds) data { r := struct P (.union name ts ds) cur } body =
          unmarshal P.nm P.n.env dn data (PTy.erase (.union name ts ds)) cur :=
  ⟨_, unionUnmarshal_tokens P.nm P.n ht, unionUnmarshal_accepted _ _ _ _, fun _ _ _ dn cur hj => union_unmarshal _ hU.apart hU.few hU.keys hj dn cur⟩

/-! ### Enums -/

/-- The functions of an enum, as they stand in the text of `String` and `NewXValue`. -/
def EnumTexts (P : Spec.GoD.Package) (print : Char → Bool) (type : Str) (syms : List Str) (dflt : Str) (E : EnumFuncs) : Prop :=
  tokens (stringText P.nm print type syms) =
    some ([w "func", .sign '(', w "e", .word type, .sign ')', w "String", .sign '(', .sign ')', w "string", .sign '{', w "switch", w "e", .sign '{'] ++
      (E.strings.flatMap (fun c => [w "case", .word c.1, .sign ':', w "return", .text c.2, .sign ';']) ++
      [.sign '}', .sign ';', w "return", .text (bytesOf "unknown".toList), .sign ';', .sign '}', .sign ';'])) ∧
  tokens (valueText P.nm print type dflt syms) =
    some ([w "func", .word (valueName type), .sign '(', w "raw", w "string", .sign ')', .sign '(', w "r",
        .word type, .sign ',', w "err", w "error", .sign ')', .sign '{', w "switch", w "raw", .sign '{'] ++
      (E.values.flatMap (fun c => [w "case", .text c.1, .sign ':', w "return", .word c.2, .sign ',', w "nil", .sign ';']) ++
      ([.sign '}', .sign ';'] ++ ((match E.other with
        | none => [w "return", .sign '-', w "1", .sign ',', w "fmt", .sign '.', w "Errorf", .sign '(',
            .text (bytesOf ("invalid value for ".toList ++ type ++ ": '%s'".toList)), .sign ',', w "raw", .sign ')', .sign ';']
        | some c => [w "return", .word c, .sign ',', w "nil", .sign ';']) ++ [.sign '}', .sign ';']))))

/-- C102, the methods of an enum, with the functions that they call. -/
theorem enum_json_code (hp : Printing print) (hL : Legal P) {q : QName} {d : PDef} {syms : List Str} {doc dflt : Str} (hq : P.n.find q = some d)
    (hk : d.kind = .enum syms doc dflt) (hn : (syms.map (symbolGoName P.nm (d.goName P.nm))).Nodup) (hb : syms.length < 2 ^ 31) (hd : dflt = [] ∨ LegalName dflt) :
    ∃ mbody ubody E, tokens (enumMarshalText (d.goName P.nm)) = some (marshalToks "b".toList (.named (d.goName P.nm)) mbody) ∧ MAccepted mbody ∧
      tokens (enumUnmarshalText (d.goName P.nm)) = some (unmarshalToks "b".toList (.pointer (.named (d.goName P.nm))) ubody) ∧ UAccepted ubody ∧
      EnumTexts P print (d.goName P.nm) syms dflt E ∧
      (∀ v, mrun P (theMarshal P) E (.ref q) (.enum v) {} mbody = marshal P.n.env (.enum v) (.ref q)) ∧
      ∀ new data dn cur, urun P (theUnmarshal P dn) new E (.ref q) data { r := cur } ubody = unmarshal P.nm P.n.env dn data (.ref q) cur := by
  have hx : Exported (d.goName P.nm) := publicName_exported P.nm (hL.defs q d hq)
  refine ⟨enumMarshal, enumUnmarshal (d.goName P.nm), enumFuncs P.nm (d.goName P.nm) syms dflt, enumMarshal_tokens hx, enumMarshal_accepted, enumUnmarshal_tokens hx,
    enumUnmarshal_accepted _, ⟨?_, ?_⟩, fun v => enum_marshal hq hk hn hb v, fun new data dn cur => enum_unmarshal hq hk hn data dn cur⟩
  · rw [enum_strings P.nm print hp d syms (hL.defs q d hq) (hL.symbols q d syms doc dflt hq hk)]
    simp only [enumFuncs, List.flatMap_map]
  · rw [enum_values P.nm print hp d syms dflt (hL.defs q d hq) (hL.symbols q d syms doc dflt hq hk) hd]
    simp only [enumFuncs, List.flatMap_map, valueName]
    by_cases h : dflt = []
    · rw [if_pos h, if_pos h]
    · rw [if_neg h, if_neg h]

/-! ### Fixed and bytes -/

/-- C102, the methods of a fixed. -/
theorem fixed_json_code (hL : Legal P) {q : QName} {d : PDef} {z : Int} (hq : P.n.find q = some d) (hk : d.kind = .fixed z) :
    ∃ mbody ubody, tokens (fixedMarshalText (d.goName P.nm)) = some (marshalToks "b".toList (.named (d.goName P.nm)) mbody) ∧ MAccepted mbody ∧
      tokens (fixedUnmarshalText (d.goName P.nm)) = some (unmarshalToks "b".toList (.pointer (.named (d.goName P.nm))) ubody) ∧ UAccepted ubody ∧
      (∀ E bs, mrun P (theMarshal P) E (.ref q) (.fixed bs) {} mbody = marshal P.n.env (.fixed bs) (.ref q)) ∧
      ∀ new E data dn bs, urun P (theUnmarshal P dn) new E (.ref q) data { r := .fixed bs } ubody = unmarshal P.nm P.n.env dn data (.ref q) (.fixed bs) := by
  have hx : Exported (d.goName P.nm) := publicName_exported P.nm (hL.defs q d hq)
  exact ⟨_, _, fixedMarshal_tokens hx, fixedMarshal_accepted, fixedUnmarshal_tokens hx, fixedUnmarshal_accepted, fun _ bs => fixed_marshal hq hk bs,
    fun _ _ data dn bs => fixed_unmarshal hq hk data dn bs⟩

/-- C102, the methods of the type `Bytes`. -/
theorem bytes_json_code (P : Spec.GoD.Package) (dflt : Json) :
    ∃ mbody ubody, tokens bytesMarshalText = some (marshalToks "b".toList (.named "Bytes".toList) mbody) ∧ MAccepted mbody ∧
      tokens bytesUnmarshalText = some (unmarshalToks "b".toList (.pointer (.named "Bytes".toList)) ubody) ∧ UAccepted ubody ∧
      (∀ E bs, mrun P (theMarshal P) E (.prim .bytes dflt) (.bytes bs) {} mbody = marshal P.n.env (.bytes bs) .bytes) ∧
      ∀ new E data dn cur, urun P (theUnmarshal P dn) new E (.prim .bytes dflt) data { r := cur } ubody = unmarshal P.nm P.n.env dn data .bytes cur :=
  ⟨_, _, bytesMarshal_tokens, bytesMarshal_accepted, bytesUnmarshal_tokens, bytesUnmarshal_accepted, fun _ bs => bytes_marshal dflt bs,
    fun _ _ data dn cur => bytes_unmarshal dflt data dn cur⟩

end Verif.Props
