import Verif.Gen.CodeText
/-
The texts of the generated serializers have no character that Go source may not have.
-/
namespace Verif
open Spec Spec.Go
set_option maxRecDepth 4000

theorem clean_write {name : Str} (h : Exported name) : Clean (writeName name) :=
  clean_append (clean_const (by decide +kernel)) (clean_exported h)

theorem clean_serializer (nm : Namer) (n : NS) {t : PTy} (h : NamedTy n t) : Clean (t.serializerText nm n) := by
  cases t with
  | prim p d =>
    rw [show (PTy.prim p d).serializerText nm n = "vm.".toList ++ p.serializer from rfl]
    refine clean_append (clean_const (by decide +kernel)) (clean_const ?_)
    cases p <;> decide +kernel
  | array t d => exact clean_write (goName_exported nm n _ h)
  | map t d => exact clean_write (goName_exported nm n _ h)
  | union name ts d => exact clean_write (goName_exported nm n _ h)
  | ref q => exact clean_write (goName_exported nm n _ h)

theorem clean_head {name type : Str} (hn : Exported name) (ht : Clean type) : Clean (writeHead name type) := by
  unfold writeHead
  exact clean_append (clean_const (by decide +kernel)) (clean_append (clean_write hn) (clean_append (clean_const (by decide +kernel))
    (clean_append ht (clean_const (by decide +kernel)))))

theorem clean_count {last : Str} (h : Clean last) : Clean (countText last) := by
  unfold countText
  exact clean_append (clean_const (by decide +kernel)) (clean_append (clean_const (by decide +kernel)) (clean_append h
    (clean_append (clean_const (by decide +kernel)) (clean_const (by decide +kernel)))))

theorem clean_check : Clean checkText := by
  unfold checkText
  exact clean_append (clean_const (by decide +kernel)) (clean_const (by decide +kernel))

theorem clean_array {name type item : Str} (hn : Exported name) (ht : Clean type) (hi : Clean item) : Clean (arrayCode name type item) := by
  unfold arrayCode
  exact clean_append (clean_head hn ht) (clean_append (clean_count (clean_const (by decide +kernel))) (clean_append (clean_const (by decide +kernel))
    (clean_append (clean_const (by decide +kernel)) (clean_append hi (clean_append (clean_const (by decide +kernel)) (clean_append clean_check
    (clean_const (by decide +kernel))))))))

theorem clean_map {name type item : Str} (hn : Exported name) (ht : Clean type) (hi : Clean item) : Clean (mapCode name type item) := by
  unfold mapCode
  exact clean_append (clean_head hn ht) (clean_append (clean_count (clean_const (by decide +kernel))) (clean_append (clean_const (by decide +kernel))
    (clean_append (clean_const (by decide +kernel)) (clean_append clean_check (clean_append (clean_const (by decide +kernel)) (clean_append hi
    (clean_append (clean_const (by decide +kernel)) (clean_append clean_check (clean_const (by decide +kernel))))))))))

theorem clean_number (k : Nat) : Clean (Nat.toDigits 10 k) := fun c hc =>
  forbidden_name (.inl ((wordChar_iff c).1 ((digits_word k).2.1 c hc)))

theorem clean_unionNull (null : Option Nat) : Clean (unionNullText null) := by
  cases null with
  | none => exact clean_const (by decide +kernel)
  | some i =>
    exact clean_append (clean_const (by decide +kernel)) (clean_append (clean_const (by decide +kernel)) (clean_append (clean_number i)
      (clean_const (by decide +kernel))))

theorem clean_unionCases (nm : Namer) (n : NS) {type : Str} (htype : Exported type) (null : Option Nat) : ∀ (us : List PTy) (i : Nat),
    (∀ u ∈ us, NamedTy n u) → Clean (unionCaseTexts nm n type null i us)
  | [], _, _ => by intro c hc; rw [unionCaseTexts] at hc; cases hc
  | u :: us, i, hs => by
    have hu := hs u (by simp)
    have hx := goName_exported nm n u hu
    rw [unionCaseTexts]
    refine clean_append ?_ (clean_unionCases nm n htype null us (i + 1) fun g hg => hs g (by simp [hg]))
    by_cases hi : null = some i
    · rw [if_pos hi]; intro c hc; cases hc
    · rw [if_neg hi]
      exact clean_append (clean_const (by decide +kernel)) (clean_append (clean_append (clean_exported htype) (clean_exported hx))
        (clean_append (clean_const (by decide +kernel)) (clean_append (clean_serializer nm n hu) (clean_append (clean_const (by decide +kernel))
        (clean_append (clean_exported hx) (clean_const (by decide +kernel)))))))

theorem clean_message {type : Str} (h : Clean type) : Clean (unionMessage type) := clean_append (clean_const (by decide +kernel)) h

theorem clean_union (nm : Namer) (n : NS) {name type : Str} (hn : Exported name) (ht : Clean type) (ts : List PTy) (hs : ∀ u ∈ ts, NamedTy n u) :
    Clean (unionCode nm n name type ts) := by
  unfold unionCode
  exact clean_append (clean_head hn ht) (clean_append (clean_unionNull _) (clean_append (clean_const (by decide +kernel))
    (clean_append (clean_const (by decide +kernel)) (clean_append (clean_const (by decide +kernel)) (clean_append (clean_const (by decide +kernel))
    (clean_append (clean_unionCases nm n (enumType_exported hn) _ ts 0 hs) (clean_append (clean_const (by decide +kernel))
    (clean_cons (by decide +kernel) (clean_append (clean_message ht) (clean_cons (by decide +kernel) (clean_const (by decide +kernel))))))))))))

theorem clean_fieldTexts (nm : Namer) (n : NS) : ∀ (fs : List PField), (∀ f ∈ fs, LegalName f.name ∧ LetterFirst f.name ∧ NamedTy n f.ty) →
    Clean (fieldTexts nm n fs)
  | [], _ => by intro c hc; rw [fieldTexts] at hc; cases hc
  | f :: fs, hs => by
    obtain ⟨a1, a2, a3⟩ := hs f (by simp)
    rw [fieldTexts]
    exact clean_append (clean_const (by decide +kernel)) (clean_append (clean_serializer nm n a3) (clean_append (clean_const (by decide +kernel))
      (clean_append (clean_exported (field_exported nm a1 a2)) (clean_append (clean_const (by decide +kernel))
      (clean_fieldTexts nm n fs fun g hg => hs g (by simp [hg]))))))

theorem clean_record (nm : Namer) (n : NS) {name : Str} (hn : Exported name) (fs : List PField)
    (hs : ∀ f ∈ fs, LegalName f.name ∧ LetterFirst f.name ∧ NamedTy n f.ty) : Clean (recordCode nm n name fs) := by
  unfold recordCode
  exact clean_append (clean_head hn (clean_exported hn)) (clean_append (clean_const (by decide +kernel)) (clean_append (clean_fieldTexts nm n fs hs)
    (clean_const (by decide +kernel))))

theorem clean_enumCode {name : Str} (hn : Exported name) : Clean (enumCode name) := by
  unfold enumCode
  exact clean_append (clean_head hn (clean_exported hn)) (clean_const (by decide +kernel))

theorem clean_fixedCode {name : Str} (hn : Exported name) : Clean (fixedCode name) := by
  unfold fixedCode
  exact clean_append (clean_head hn (clean_exported hn)) (clean_const (by decide +kernel))

theorem clean_serialize {name type : Str} (hn : Exported name) (ht : Clean type) : Clean (serializeText name type) := by
  unfold serializeText
  exact clean_append (clean_const (by decide +kernel)) (clean_append ht (clean_append (clean_const (by decide +kernel))
    (clean_append (clean_const (by decide +kernel)) (clean_append (clean_write hn) (clean_const (by decide +kernel))))))

/-- The Go type of a union has only letters, digits and a star: it can stand in a message. -/
theorem plain_unionType (nm : Namer) (n : NS) {name : Str} {ts : List PTy} {d : List Json} (h : NamedTy n (.union name ts d)) :
    ∀ c ∈ (PTy.union name ts d).goType nm n, PlainStr c := by
  have hx := exported_chars (goName_exported nm n _ h)
  intro c hc
  rw [goType_union] at hc
  split at hc
  · rcases List.mem_append.1 hc with hc | hc
    · have : ∀ c ∈ "*".toList, PlainStr c := by unfold PlainStr; decide +kernel
      exact this c hc
    · exact name_plain (.inl (hx c hc))
  · exact name_plain (.inl (hx c hc))

end Verif
