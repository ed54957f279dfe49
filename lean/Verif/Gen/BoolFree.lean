import Verif.Gen.Outcome
/-
Schemas without Booleans: it makes no difference whether the reader has `ReadByte`. (For
Booleans it does, v10/vm/readers.go:13-29.)
-/
namespace Verif
set_option linter.unusedSimpArgs false
set_option linter.unusedVariables false

mutual
/-- There is no Boolean in the type, references left aside. -/
def Ty.noBool : Ty → Bool
  | .bool => false
  | .array t => t.noBool
  | .map t => t.noBool
  | .union ts => Ty.noBools ts
  | _ => true
def Ty.noBools : List Ty → Bool
  | [] => true
  | t :: ts => t.noBool && Ty.noBools ts
end

theorem noBools_mem : ∀ {ts : List Ty}, Ty.noBools ts = true → ∀ t ∈ ts, t.noBool = true
  | [], _, t, h => by cases h
  | a :: ts, h, t, hm => by
    simp only [Ty.noBools, Bool.and_eq_true] at h
    rcases List.mem_cons.1 hm with rfl | hm
    · exact h.1
    · exact noBools_mem h.2 t hm

/-- Nor in a definition. -/
def Def.noBool (d : Def) : Bool :=
  match d.kind with
  | .record fs => fs.all fun f => f.ty.noBool
  | _ => true

def Schema.noBool (s : Schema) : Bool := s.root.noBool && s.env.all fun x => x.2.noBool

theorem find_mem : ∀ {env : Env} {q : QName} {d : Def}, env.find q = some d → ∃ q', (q', d) ∈ env
  | [], _, _, h => by simp [Env.find] at h
  | (q', d') :: env, q, d, h => by
    simp only [Env.find] at h
    split at h
    · simp only [Option.some.injEq] at h; exact ⟨q', by simp [h]⟩
    · obtain ⟨q2, h2⟩ := find_mem h; exact ⟨q2, by simp [h2]⟩

theorem next_any (r : List Byte) : (flatOps true).next r = (flatOps false).next r := by
  cases r with
  | nil => rfl
  | cons b r => simp [ReaderOps.next, flatOps, flatReadByte, flatReadFull]

theorem readVarLoop_any : ∀ n v s (r : List Byte), readVarLoop (flatOps true) n v s r = readVarLoop (flatOps false) n v s r
  | 0, _, _, _ => rfl
  | n + 1, v, s, r => by
    rw [readVarLoop, readVarLoop, next_any]
    cases (flatOps false).next r with
    | error e => rfl
    | ok x => simp only [readVarLoop_any n]

theorem readVar_any (r : List Byte) : readVar (flatOps true) r = readVar (flatOps false) r := readVarLoop_any _ _ _ _
theorem readLong_any (r : List Byte) : readLong (flatOps true) r = readLong (flatOps false) r := by
  unfold readLong; rw [readVar_any]
theorem readSized_any (e : Err) (r : List Byte) : readSized e (flatOps true) r = readSized e (flatOps false) r := by
  unfold readSized; rw [readLong_any]; rfl

section
variable {α : Type} {p q : List Byte → Out (α × List Byte)}

theorem parseRep_any (h : ∀ r, p r = q r) : ∀ k r, parseRep p k r = parseRep q k r := by
  intro k r
  rw [show p = q from funext h]

theorem parseBlocks_any (lim : Nat) (h : ∀ r, p r = q r) : ∀ n first r,
    parseBlocks (flatOps true) lim p n first r = parseBlocks (flatOps false) lim q n first r := by
  have hpq : p = q := funext h
  subst hpq
  intro n
  induction n with
  | zero => intro first r; simp only [parseBlocks]
  | succ n ih =>
    intro first r
    rw [parseBlocks, parseBlocks, readLong_any]
    have hi : ∀ c r, parseBlocks.items (flatOps true) lim p n first c r = parseBlocks.items (flatOps false) lim p n first c r := by
      intro c r
      simp only [parseBlocks.items, ih]
    cases readLong (flatOps false) r with
    | error e => rfl
    | ok x =>
      simp only [hi, readLong_any]
end

theorem parseFields_any {p q : Ty → List Byte → Out (Datum × List Byte)} : ∀ {fs : List Field},
    (∀ f ∈ fs, ∀ r, p f.ty r = q f.ty r) → ∀ r, parseFields p fs r = parseFields q fs r
  | [], _, r => rfl
  | f :: fs, h, r => by
    rw [parseFields, parseFields, h f (by simp)]
    congr 1
    funext x
    rw [parseFields_any fun g hg => h g (by simp [hg])]

/-- Reading without Booleans. -/
theorem parse_any {lim : Nat} {env : Env} (he : (env.all fun x => x.2.noBool) = true) : ∀ n t r, t.noBool = true →
    parse (flatOps true) lim env n t r = parse (flatOps false) lim env n t r := by
  intro n
  induction n with
  | zero => intro t r h; rfl
  | succ n ih =>
    intro t r h
    cases t with
    | null => simp only [parse]
    | bool => simp [Ty.noBool] at h
    | int => simp only [parse, readInt, readVar_any]
    | long => simp only [parse, readLong_any]
    | float => simp only [parse]; rfl
    | double => simp only [parse]; rfl
    | bytes => simp only [parse, readBytes, readSized_any]
    | string => simp only [parse, readString, readSized_any]
    | array t =>
      simp only [Ty.noBool] at h
      simp only [parse]
      rw [parseBlocks_any lim fun r => ih t r h]
    | map t =>
      simp only [Ty.noBool] at h
      simp only [parse]
      rw [parseBlocks_any lim fun r => ?_]
      simp only [parseEntry, readString, readSized_any, ih t _ h]
    | union ts =>
      simp only [Ty.noBool] at h
      simp only [parse, readLong_any]
      cases readLong (flatOps false) r with
      | error e => rfl
      | ok x =>
        simp only
        cases hx : atIndex ts x.1 with
        | none => rfl
        | some t =>
          simp only
          rw [ih t _ (noBools_mem h t ?_)]
          unfold atIndex at hx
          split at hx
          · exact List.mem_of_getElem? hx
          · cases hx
    | ref q =>
      simp only [parse]
      cases hq : env.find q with
      | none => rfl
      | some d =>
        obtain ⟨q', hm⟩ := find_mem hq
        have hd := List.all_eq_true.1 he _ hm
        simp only at hd
        unfold Def.noBool at hd
        simp only [parseDef]
        cases hk : d.kind with
        | record fs =>
          rw [hk] at hd
          simp only at hd ⊢
          rw [parseFields_any fun f hf r => ih f.ty r (by simpa using List.all_eq_true.1 hd f hf)]
        | enum ss df => simp only [readLong_any]
        | fixed k => rfl

theorem ReadsAs.any {s : Schema} (hb : s.noBool = true) (k k' : Bool) {lim bs a} (h : ReadsAs k lim s.env s.root bs a) :
    ReadsAs k' lim s.env s.root bs a := by
  simp only [Schema.noBool, Bool.and_eq_true] at hb
  have key : ∀ (k : Bool) n r, parse (flatOps k) lim s.env n s.root r = parse (flatOps false) lim s.env n s.root r := by
    intro k n r
    cases k
    · rfl
    · exact parse_any hb.2 n s.root r hb.1
  cases a with
  | none =>
    obtain ⟨n, e, h⟩ := h
    exact ⟨n, e, by rw [key k', ← key k]; exact h⟩
  | some x =>
    obtain ⟨n, h⟩ := h
    exact ⟨n, by rw [key k', ← key k]; exact h⟩

end Verif
