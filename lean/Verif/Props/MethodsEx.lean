import Verif.Props.Methods
import Verif.Props.CodeEx
/-
Cases that meet the hypotheses of Props/Methods: the package generated from a document, filled in by its methods.
-/
namespace Verif.Props
open Verif Spec.GoT

/-- `OneMeaning`, as a check. -/
def oneMeaningB (nm : Namer) (n : NS) (ts : List PTy) : Bool :=
  (ts.all fun t => match t with | .ref q => (n.find q).isSome | _ => true) &&
  decide ((ts.filter fun t => !(t.methods nm n).isEmpty).map (PTy.holder nm n)).Nodup &&
  (ts.all fun t => ts.all fun u => !decide (t.wrapper nm n = u.wrapper nm n) || !(t.wrapper nm n).isSome || t.isMap == u.isMap) &&
  (ts.all fun t => (match t with | .prim _ _ => true | _ => false) || !decide (t.wrapper nm n = some (.named "BytesWrapper".toList))) &&
  decide ((ts.filter fun t => (t.struct nm n).isSome).map (PTy.goName nm n)).Nodup &&
  (ts.all fun t => match t.struct nm n with
    | some s => decide (s.fields.map (·.1)).Nodup && !decide ("UnionType".toList ∈ s.fields.map (·.1))
    | none => true) &&
  decide ((ts.filter fun t => (t.bytes n).isSome).map (PTy.goName nm n)).Nodup &&
  decide ((ts.filter fun t => (t.maker nm n).isSome).map (PTy.maker nm n)).Nodup

theorem oneMeaning_of {nm : Namer} {n : NS} {ts : List PTy} (h : oneMeaningB nm n ts = true) : OneMeaning nm n ts := by
  simp only [oneMeaningB, Bool.and_eq_true, decide_eq_true_eq, List.all_eq_true] at h
  obtain ⟨⟨⟨⟨⟨⟨⟨h1, h2⟩, h3⟩, h4⟩, h5⟩, h6⟩, h7⟩, h8⟩ := h
  have hfil : ∀ {p : PTy → Bool} {t : PTy}, t ∈ ts → p t = true → t ∈ ts.filter p := fun ht hp => List.mem_filter.2 ⟨ht, hp⟩
  refine ⟨?_, ?_, ?_, ?_, ?_, ?_, ?_, ?_⟩
  · intro q hq
    exact Option.isSome_iff_exists.1 (h1 _ hq)
  · intro t ht u hu n1 n2 e
    rw [nodup_inj h2 t (hfil ht (by simpa using n1)) u (hfil hu (by simpa using n2)) e]
  · intro t ht u hu hs e
    have := h3 t ht u hu
    simpa [e, e ▸ hs] using this
  · intro t ht hp e
    have := h4 t ht
    cases t with
    | prim p d => exact hp p d rfl
    | _ => simp [e] at this
  · intro t ht u hu n1 n2 e
    rw [nodup_inj h5 t (hfil ht n1) u (hfil hu n2) e]
  · intro t ht s hs
    have := h6 t ht
    simp only [hs, Bool.and_eq_true, decide_eq_true_eq, Bool.not_eq_true', decide_eq_false_iff_not] at this
    exact this
  · intro t ht u hu n1 n2 e
    rw [nodup_inj h7 t (hfil ht n1) u (hfil hu n2) e]
  · intro t ht u hu n1 e
    rw [nodup_inj h8 t (hfil ht n1) u (hfil hu (e ▸ n1)) e]
    exact ⟨rfl, rfl⟩

def methodsB (n : NS) : Bool :=
  documentB qCode n && hasTyB n.env 1000 codeVal (.ref qCode) && showsB .simple n codeGo codeVal (.ref qCode) &&
  declaredB .simple n (codeTypes n) && closedUnderB n (codeTypes n) && decide (.ref qCode ∈ codeTypes n) && oneMeaningB .simple n (codeTypes n)

/-- The record of `codeDoc`, with a fixed, an array, a map, an enum, and an optional union with the record itself: the
programs write the value, and if there was room for it, read it back. -/
example (cap : Nat) (room : Nat → Nat) (h : Mem) : ∃ n d err st', parseCommand false [codeDoc] = .ok n ∧ n.find qCode = some d ∧
    Spec.Go.Returns (codeMachine cap) (packageOf .simple n (codeTypes n)) (serializeMethod (d.goName .simple) (.named (d.goName .simple)))
      [codeGo, .writer] ⟨[], 0⟩ [.error err] st' ∧
    (err = none → ∃ v rd' h' fp, DeserializesWith (demo false) (packOf .simple n (codeTypes n) 1000 room)
        (defaultsOf .simple n (codeTypes n) (demo false).dv) .simple n (.ref qCode) ⟨n.env, .ref qCode⟩ [st'.w, [7]] h v rd' h' ∧ rd'.flatten = [7] ∧
      VarShows h' codeVal v fp ∧ fp.Nodup ∧ (∀ a ∈ fp, h.length ≤ a) ∧ h'.Extends h) := by
  obtain ⟨n, h1, h2⟩ := readAs_ok (js := [codeDoc]) (p := methodsB) (by decide +kernel)
  simp only [methodsB, Bool.and_eq_true, decide_eq_true_eq] at h2
  obtain ⟨⟨⟨⟨⟨⟨h2, h3⟩, h4⟩, h5⟩, h6⟩, h7⟩, h8⟩ := h2
  obtain ⟨-, d, fs, doc, a1, a2, a3, a4⟩ := document_of h1 h2
  simp only [documentB, Bool.and_eq_true] at h2
  obtain ⟨err, st', b1, b2⟩ := programs_roundtrip_partial (oneMeaning_of h8) (closedUnder_of h6) (demo false) room h7 ⟨d, fs, doc, a1, a3⟩
    (wellFormed_of famRank h2.2) (demo_delivers false) (by decide) (codeMachine cap) (boundedWriter_takes cap) (declared_of h5) (d.writer .simple n)
    (by simp only [PTy.writer, a1, Option.map_some]) codeGo codeVal (shows_of _ _ _ _ _ h4) (hasTy_of _ _ h3) (by simp [codeVal]) ⟨[], 0⟩
  simp only [Spec.Go.goTypeOf, goName_ref a1] at b1
  refine ⟨n, d, err, st', h1, a1, b1, fun he => ?_⟩
  obtain ⟨e, c1, c2⟩ := b2 he
  obtain ⟨v, rd', h', fp, c3⟩ := c2 [st'.w, [7]] [7] h (by simp only [List.nil_append] at c1; simp [c1])
  exact ⟨v, rd', h', fp, c3⟩
end Verif.Props
