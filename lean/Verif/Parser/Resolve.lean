import Verif.Parser.Decode
/-
The resolver, `ParseSchema` and the front half of the command.
-/
namespace Verif
open Spec
set_option linter.unusedSimpArgs false
set_option linter.unusedVariables false

mutual
theorem unresolved_none {n : NS} : ∀ t : PTy, t.unresolved n = none ↔ ∀ q, Mentions t q → ∃ d, n.find q = some d
  | .ref q => by
    simp only [PTy.unresolved]
    constructor
    · intro h q' hq
      cases hq
      split at h
      · rename_i d hd; exact ⟨d, hd⟩
      · cases h
    · intro h
      obtain ⟨d, hd⟩ := h q .ref
      rw [hd]
  | .prim _ _ => by
    simp only [PTy.unresolved, true_iff]
    intro q hq; cases hq
  | .array t _ => by
    simp only [PTy.unresolved, unresolved_none t]
    exact ⟨fun h q hq => by cases hq; exact h q (by assumption), fun h q hq => h q (.array hq)⟩
  | .map t _ => by
    simp only [PTy.unresolved, unresolved_none t]
    exact ⟨fun h q hq => by cases hq; exact h q (by assumption), fun h q hq => h q (.map hq)⟩
  | .union _ ts _ => by
    simp only [PTy.unresolved, unresolvedAll_none ts]
    constructor
    · intro h q hq
      cases hq with
      | union ht hq => exact h _ ht q hq
    · intro h t ht q hq
      exact h q (.union ht hq)
theorem unresolvedAll_none {n : NS} : ∀ ts : List PTy, PTy.unresolvedAll n ts = none ↔
    ∀ t ∈ ts, ∀ q, Mentions t q → ∃ d, n.find q = some d
  | [] => by simp [PTy.unresolvedAll]
  | t :: ts => by
    simp only [PTy.unresolvedAll]
    constructor
    · intro h
      split at h
      · cases h
      rename_i h1
      have h2 := (unresolved_none t).1 h1
      have h3 := (unresolvedAll_none ts).1 h
      intro u hu
      rcases List.mem_cons.1 hu with hu | hu
      · rw [hu]; exact h2
      · exact h3 u hu
    · intro h
      rw [(unresolved_none t).2 (h t (by simp))]
      exact (unresolvedAll_none ts).2 fun u hu => h u (by simp [hu])
end

theorem resolveRoots_ok {n : NS} : ∀ {rs : List Root}, resolveRoots n rs = .ok () ↔
    ∀ r ∈ rs, ∀ t ∈ r.children, ∀ q, Mentions t q → ∃ d, n.find q = some d
  | [] => by simp [resolveRoots]
  | r :: rs => by
    simp only [resolveRoots]
    constructor
    · intro h
      split at h
      · cases h
      rename_i h1
      intro r' hr'
      rcases List.mem_cons.1 hr' with rfl | hr'
      · exact (unresolvedAll_none _).1 h1
      · exact resolveRoots_ok.1 h r' hr'
    · intro h
      rw [(unresolvedAll_none _).2 (h r (by simp))]
      exact resolveRoots_ok.2 fun r' hr' => h r' (by simp [hr'])

theorem resolveRoots_error {n : NS} {e : PErr} : ∀ {rs : List Root}, resolveRoots n rs = .error e →
    ∃ q, e = .unresolved q ∧ n.find q = none := by
  have h1 : ∀ ts : List PTy, ∀ q, PTy.unresolvedAll n ts = some q → n.find q = none := by
    intro ts
    refine PTy.rec_1 (motive_1 := fun t => ∀ q, t.unresolved n = some q → n.find q = none)
      (motive_2 := fun ts => ∀ q, PTy.unresolvedAll n ts = some q → n.find q = none)
      ?_ ?_ ?_ ?_ ?_ ?_ ?_ ts
    · intro p j q h; simp [PTy.unresolved] at h
    · intro t j ih q h; exact ih q (by simpa [PTy.unresolved] using h)
    · intro t j ih q h; exact ih q (by simpa [PTy.unresolved] using h)
    · intro nm ts js ih q h; exact ih q (by simpa [PTy.unresolved] using h)
    · intro q q' h
      simp only [PTy.unresolved] at h
      split at h
      · cases h
      · cases h; assumption
    · intro q h; simp [PTy.unresolvedAll] at h
    · intro t ts ih1 ih2 q h
      simp only [PTy.unresolvedAll] at h
      split at h
      · rename_i h2; cases h; exact ih1 _ h2
      · exact ih2 q h
  intro rs
  induction rs with
  | nil => intro h; cases h
  | cons r rs ih =>
    intro h
    simp only [resolveRoots] at h
    split at h
    · rename_i q hq; cases h; exact ⟨q, rfl, h1 _ _ hq⟩
    · exact ih h

/-- The top types of the files read so far. -/
structure Tops (n : NS) (ts : List PTy) : Prop where
  iff : ∀ t, Root.file t ∈ n.roots ↔ t ∈ ts

theorem registerAliases_roots (d : PDef) : ∀ (as : List QName) (n : NS),
    (registerAliases d as n).2.roots = n.roots
  | [], n => rfl
  | a :: as, n => by
    simp only [registerAliases]
    split
    · rfl
    · exact registerAliases_roots d as _

theorem Tops.registerAll {ts : List PTy} : ∀ {ds : List PDef} {n : NS}, Tops n ts → Tops (registerAll n ds).2 ts
  | [], n, h => h
  | d :: ds, n, h => by
    have h1 : Tops (register n d).2 ts := by
      unfold Verif.register
      split
      · split <;> exact h
      · refine ⟨fun t => ?_⟩
        rw [registerAliases_roots]
        simp [h.iff]
    simp only [Verif.registerAll]
    rcases hr : Verif.register n d with ⟨r, n'⟩
    rw [hr] at h1
    cases r with
    | error e => exact h1
    | ok u => exact Tops.registerAll h1

/-- `Complete`, with any number of top types. -/
def CompleteAll (ts : List PTy) (ds : List PDef) : Prop :=
  (∀ t ∈ ts, ∀ q, Mentions t q → ∃ d ∈ ds, KnownAs d q) ∧
  ∀ d ∈ ds, ∀ fs doc, d.kind = .record fs doc → ∀ f ∈ fs, ∀ q, Mentions f.ty q → ∃ d ∈ ds, KnownAs d q

theorem completeAll_one {t : PTy} {ds : List PDef} : CompleteAll [t] ds ↔ Complete t ds := by
  unfold CompleteAll Complete
  simp

theorem resolve_complete {n : NS} {ds : List PDef} {ts : List PTy} (h : Holds n ds) (ht : Tops n ts) :
    resolveRoots n n.roots = .ok () ↔ CompleteAll ts ds := by
  have hf : ∀ q, (∃ d, n.find q = some d) ↔ ∃ d ∈ ds, KnownAs d q := fun q =>
    ⟨fun ⟨d, hd⟩ => ⟨d, ((h.find q d).1 hd).1, ((h.find q d).1 hd).2⟩, fun ⟨d, h1, h2⟩ => ⟨d, (h.find q d).2 ⟨h1, h2⟩⟩⟩
  rw [resolveRoots_ok]
  constructor
  · intro hr
    refine ⟨fun t htt q hq => (hf q).1 (hr (.file t) ((ht.iff t).2 htt) t (by simp [Root.children]) q hq), ?_⟩
    intro d hd fs doc hk f hfm q hq
    exact (hf q).1 (hr (.defn d) ((h.roots d).2 hd) f.ty (by simp only [Root.children, hk]; exact List.mem_map_of_mem hfm) q hq)
  · rintro ⟨h1, h2⟩ r hr t htc q hq
    cases r with
    | file t' =>
      simp only [Root.children, List.mem_singleton] at htc
      subst htc
      exact (hf q).2 (h1 t ((ht.iff t).1 hr) q hq)
    | defn d =>
      simp only [Root.children] at htc
      split at htc
      · rename_i fs doc hk
        obtain ⟨f, hfm, rfl⟩ := List.mem_map.1 htc
        exact (hf q).2 (h2 d ((h.roots d).1 hr) fs doc hk f hfm q hq)
      · cases htc

theorem Holds.addFile {n : NS} {ds : List PDef} (h : Holds n ds) (t : PTy) :
    Holds { n with roots := n.roots ++ [.file t] } ds where
  find := h.find
  compatible := h.compatible
  roots d := by simp [h.roots]

theorem Tops.addFile {n : NS} {ts : List PTy} (h : Tops n ts) (t : PTy) :
    Tops { n with roots := n.roots ++ [.file t] } (ts ++ [t]) where
  iff t' := by simp [h.iff]

/-- `TypeForSchema`. -/
theorem typeForSchema_iff {n n' : NS} {j : Json} {t : PTy} : typeForSchema n j = (.ok t, n') ↔
    ∃ ds n1, Describes n.shortUnions "topLevel".toList [] j t ds ∧ registerAll n ds = (.ok (), n1) ∧
      n' = { n1 with roots := n1.roots ++ [.file t] } := by
  unfold typeForSchema
  constructor
  · intro h
    split at h
    · cases h
    rename_i t' n1 h1
    cases h
    obtain ⟨ds, h2, h3⟩ := (decodeType_iff _ _ _ _ (Nat.le_refl _) n t n1).1 h1
    exact ⟨ds, n1, h2, h3, rfl⟩
  · rintro ⟨ds, n1, h1, h2, rfl⟩
    rw [(decodeType_iff _ _ _ _ (Nat.le_refl _) n t n1).2 ⟨ds, h1, h2⟩]

theorem typeForSchema_notDeep {n : NS} {j : Json} : (typeForSchema n j).1 ≠ .error .deep := by
  have h := decodeType_notDeep j.depth "topLevel".toList [] j (Nat.le_refl _) n
  unfold typeForSchema
  split
  · rename_i h1; rw [h1] at h; exact fun h' => h (by cases h'; rfl)
  · simp

/-- All the files of a command, each with its type and its definitions. -/
inductive FilesDescribe (short : Bool) : List Json → List PTy → List PDef → Prop
  | nil : FilesDescribe short [] [] []
  | cons {j js t ts ds ds'} : Describes short "topLevel".toList [] j t ds → FilesDescribe short js ts ds' →
      FilesDescribe short (j :: js) (t :: ts) (ds ++ ds')

theorem parseFiles_ok : ∀ {js : List Json} {n n' : NS} {ts0 ds0}, Holds n ds0 → Tops n ts0 →
    (parseFiles js n = (.ok (), n') → ∃ ts ds, FilesDescribe n.shortUnions js ts ds ∧ Holds n' (ds0 ++ ds) ∧
      Tops n' (ts0 ++ ts) ∧ n'.shortUnions = n.shortUnions)
  | [], n, n', ts0, ds0, h, ht => by
    intro h1; cases h1
    exact ⟨[], [], .nil, by simpa using h, by simpa using ht, rfl⟩
  | j :: js, n, n', ts0, ds0, h, ht => by
    intro h1
    simp only [parseFiles] at h1
    split at h1
    · cases h1
    rename_i t n1 h2
    obtain ⟨ds, n2, h3, h4, rfl⟩ := typeForSchema_iff.1 h2
    have hok : (registerAll n ds).1 = .ok () := by rw [h4]
    obtain ⟨hh, hs⟩ := (h.registerAll ds).2 hok
    have htt := ht.registerAll (ds := ds)
    rw [h4] at hh hs htt
    obtain ⟨ts, ds', h5, h6, h7, h8⟩ := parseFiles_ok (hh.addFile t) (htt.addFile t) h1
    refine ⟨t :: ts, ds ++ ds', ?_, by simpa using h6, by simpa using h7, h8.trans hs⟩
    refine .cons h3 ?_
    have : n2.shortUnions = n.shortUnions := hs
    rw [← this]; exact h5

theorem parseFiles_complete : ∀ {js : List Json} {n : NS} {ds0 ts ds}, Holds n ds0 →
    FilesDescribe n.shortUnions js ts ds → Compatible (ds0 ++ ds) → ∃ n', parseFiles js n = (.ok (), n')
  | [], n, ds0, ts, ds, h, hf, hc => ⟨n, rfl⟩
  | j :: js, n, ds0, ts, ds, h, hf, hc => by
    cases hf with
    | @cons _ _ t ts ds ds' h1 h2 =>
      have hok : (registerAll n ds).1 = .ok () := ((h.registerAll ds).1).2 (Compatible.prefix (ds' := ds') (by simpa using hc))
      obtain ⟨hh, hs⟩ := (h.registerAll ds).2 hok
      rcases hr : registerAll n ds with ⟨r, n1⟩
      rw [hr] at hok hh hs
      simp only at hok
      subst hok
      obtain ⟨n', h3⟩ := parseFiles_complete (hh.addFile t) (by
        show FilesDescribe n1.shortUnions js ts ds'
        have : n1.shortUnions = n.shortUnions := hs
        rw [this]; exact h2) (by simpa using hc)
      refine ⟨n', ?_⟩
      simp only [parseFiles]
      rw [typeForSchema_iff.2 ⟨ds, n1, h1, hr, rfl⟩]
      exact h3

theorem env_find {n : NS} {q : QName} : n.env.find q = (n.find q).map PDef.erase := by
  unfold NS.env NS.find
  induction n.defs with
  | nil => rfl
  | cons e l ih =>
    obtain ⟨k, d⟩ := e
    simp only [List.map_cons, Env.find, List.lookup]
    by_cases h : q = k
    · subst h; simp
    · have h' : (q == k) = false := beq_eq_false_iff_ne.2 h
      rw [if_neg (fun h2 => h h2.symm), ih, h']

/-! Every JSON value describes at most one thing. -/

theorem each_unique {α β : Type} {R : α → β → Prop} (hR : ∀ a b b', R a b → R a b' → b = b') :
    ∀ {as : List α} {bs bs' : List β}, Each R as bs → Each R as bs' → bs = bs'
  | [], _, _, h, h' => by cases h; cases h'; rfl
  | a :: as, _, _, h, h' => by
    cases h with
    | cons h1 h2 =>
      cases h' with
      | cons h3 h4 => rw [hR _ _ _ h1 h3, each_unique hR h2 h4]

theorem describes_unique {short : Bool} {name ns : Str} {j : Json} {t t' : PTy} {ds ds' : List PDef}
    (h : Describes short name ns j t ds) (h' : Describes short name ns j t' ds')
    : t = t' ∧ ds = ds' := by
  have key : ∀ {name ns j t ds}, Describes short name ns j t ds →
      ∀ {t' ds'}, Describes short name ns j t' ds' → t = t' ∧ ds = ds' := by
    have hname : ∀ {enc o q q'}, NameOf enc o q → NameOf enc o q' → q = q' := by
      intro enc o q q' h h'
      have := (avroName_iff.2 h).symm.trans (avroName_iff.2 h'); cases this; rfl
    have hal : ∀ {enc o q q'}, AliasesOf enc o q → AliasesOf enc o q' → q = q' := by
      intro enc o q q' h h'
      have := (parseAliases_iff.2 h).symm.trans (parseAliases_iff.2 h'); cases this; rfl
    have hopt : ∀ {o k s s'}, OptAttr o k s → OptAttr o k s' → s = s' := by
      intro o k s s' h h'
      have := (optStr_iff.2 h).symm.trans (optStr_iff.2 h'); cases this; rfl
    have hops : ∀ {o s s'}, OptStrings o "aliases".toList s → OptStrings o "aliases".toList s' → s = s' := by
      intro o s s' h h'
      have := (fieldAliases_iff.2 h).symm.trans (fieldAliases_iff.2 h'); cases this; rfl
    have hfull : ∀ {enc s q q'}, FullName enc s q → FullName enc s q' → q = q' := by
      intro enc s q q' h h'
      exact (parseAvroName_iff.2 h).symm.trans (parseAvroName_iff.2 h')
    have hprim : ∀ {s p p'}, (s, p) ∈ primNames → (s, p') ∈ primNames → p = p' := by
      intro s p p' h h'
      have := (primNamed_iff.2 h).symm.trans (primNamed_iff.2 h'); cases this; rfl
    have hstrs : ∀ {l : List Str} {l' : List Str}, l.map Json.str = l'.map Json.str → l = l' := by
      intro l l' h
      have := (strings_iff (k := [])).2 h
      rw [(strings_iff (k := [])).2 rfl] at this
      cases this; rfl
    have hkp : ∀ {s p}, (s, p) ∈ primNames → s ∈ keywords → False := fun h h' => keyword_not_prim h' _ h
    intro name ns j t ds h
    refine Describes.rec
      (motive_1 := fun name ns j t ds _ => ∀ {t' ds'}, Describes short name ns j t' ds' → t = t' ∧ ds = ds')
      (motive_2 := fun name ns js ts ds _ => ∀ {ts' ds'}, DescribesAll short name ns js ts' ds' → ts = ts' ∧ ds = ds')
      (motive_3 := fun ns js fs ds _ => ∀ {fs' ds'}, DescribesFields short ns js fs' ds' → fs = fs' ∧ ds = ds')
      ?_ ?_ ?_ ?_ ?_ ?_ ?_ ?_ ?_ ?_ ?_ ?_ ?_ ?_ h
    · intro name enc s p hp t' ds' h'
      cases h' with
      | prim hp' => rw [hprim hp hp']; exact ⟨rfl, rfl⟩
      | named hn => exact absurd hp (hn p)
    · intro name enc s q hn hq t' ds' h'
      cases h' with
      | prim hp' => exact absurd hp' (hn _)
      | named hn' hq' => rw [hfull hq hq']; exact ⟨rfl, rfl⟩
    · intro name enc js ts ds _ ih t' ds' h'
      cases h' with
      | union h1 => obtain ⟨rfl, rfl⟩ := ih h1; exact ⟨rfl, rfl⟩
    · intro name enc o j t ds h1 h2 _ ih t' ds' h'
      cases h' with
      | array h1' h2' h3' =>
        rw [h2] at h2'; cases h2'
        obtain ⟨rfl, rfl⟩ := ih h3'; exact ⟨rfl, rfl⟩
      | map h1' => rw [h1] at h1'; simp at h1'
      | enum h1' => rw [h1] at h1'; simp at h1'
      | fixed h1' => rw [h1] at h1'; simp at h1'
      | record h1' => rw [h1] at h1'; simp at h1'
      | primObject h1' hp => rw [h1] at h1'; cases h1'; exact absurd hp (keyword_not_prim (by decide) _)
      | namedObject h1' hp => rw [h1] at h1'; cases h1'; exact absurd (by decide) hp
    · intro name enc o j t ds h1 h2 _ ih t' ds' h'
      cases h' with
      | map h1' h2' h3' =>
        rw [h2] at h2'; cases h2'
        obtain ⟨rfl, rfl⟩ := ih h3'; exact ⟨rfl, rfl⟩
      | array h1' => rw [h1] at h1'; simp at h1'
      | enum h1' => rw [h1] at h1'; simp at h1'
      | fixed h1' => rw [h1] at h1'; simp at h1'
      | record h1' => rw [h1] at h1'; simp at h1'
      | primObject h1' hp => rw [h1] at h1'; cases h1'; exact absurd hp (keyword_not_prim (by decide) _)
      | namedObject h1' hp => rw [h1] at h1'; cases h1'; exact absurd (by decide) hp
    · intro name enc o q qs ss doc dflt h1 h2 h3 h4 h5 h6 t' ds' h'
      cases h' with
      | enum h1' h2' h3' h4' h5' h6' =>
        rw [h3] at h3'
        simp only [Option.some.injEq, Json.arr.injEq] at h3'
        have := hstrs h3'
        subst this
        rw [hname h2 h2', hal h4 h4', hopt h5 h5', hopt h6 h6']; exact ⟨rfl, rfl⟩
      | array h1' => rw [h1] at h1'; simp at h1'
      | map h1' => rw [h1] at h1'; simp at h1'
      | fixed h1' => rw [h1] at h1'; simp at h1'
      | record h1' => rw [h1] at h1'; simp at h1'
      | primObject h1' hp => rw [h1] at h1'; cases h1'; exact absurd hp (keyword_not_prim (by decide) _)
      | namedObject h1' hp => rw [h1] at h1'; cases h1'; exact absurd (by decide) hp
    · intro name enc o q qs size h1 h2 h3 h4 t' ds' h'
      cases h' with
      | fixed h1' h2' h3' h4' =>
        have hs := (getInt_iff.2 h3).symm.trans (getInt_iff.2 h3')
        cases hs
        have hq := hname h2 h2'
        subst hq
        rw [hal h4 h4']; exact ⟨rfl, rfl⟩
      | array h1' => rw [h1] at h1'; simp at h1'
      | map h1' => rw [h1] at h1'; simp at h1'
      | enum h1' => rw [h1] at h1'; simp at h1'
      | record h1' => rw [h1] at h1'; simp at h1'
      | primObject h1' hp => rw [h1] at h1'; cases h1'; exact absurd hp (keyword_not_prim (by decide) _)
      | namedObject h1' hp => rw [h1] at h1'; cases h1'; exact absurd (by decide) hp
    · intro name enc o q qs js fs doc ds h1 h2 h3 h4 h5 _ ih t' ds' h'
      cases h' with
      | record h1' h2' h3' h4' h5' h6' =>
        have hq := hname h2 h2'
        subst hq
        rw [h3] at h3'; cases h3'
        obtain ⟨rfl, rfl⟩ := ih h6'
        rw [hal h4 h4', hopt h5 h5']; exact ⟨rfl, rfl⟩
      | array h1' => rw [h1] at h1'; simp at h1'
      | map h1' => rw [h1] at h1'; simp at h1'
      | enum h1' => rw [h1] at h1'; simp at h1'
      | fixed h1' => rw [h1] at h1'; simp at h1'
      | primObject h1' hp => rw [h1] at h1'; cases h1'; exact absurd hp (keyword_not_prim (by decide) _)
      | namedObject h1' hp => rw [h1] at h1'; cases h1'; exact absurd (by decide) hp
    · intro name enc o s p h1 hp t' ds' h'
      cases h' with
      | primObject h1' hp' => rw [h1] at h1'; cases h1'; rw [hprim hp hp']; exact ⟨rfl, rfl⟩
      | namedObject h1' _ hn => rw [h1] at h1'; cases h1'; exact absurd hp (hn p)
      | array h1' => rw [h1] at h1'; cases h1'; exact (hkp hp (by decide)).elim
      | map h1' => rw [h1] at h1'; cases h1'; exact (hkp hp (by decide)).elim
      | enum h1' => rw [h1] at h1'; cases h1'; exact (hkp hp (by decide)).elim
      | fixed h1' => rw [h1] at h1'; cases h1'; exact (hkp hp (by decide)).elim
      | record h1' => rw [h1] at h1'; cases h1'; exact (hkp hp (by decide)).elim
    · intro name enc o s q h1 hk hn hq t' ds' h'
      cases h' with
      | primObject h1' hp' => rw [h1] at h1'; cases h1'; exact absurd hp' (hn _)
      | namedObject h1' _ _ hq' => rw [h1] at h1'; cases h1'; rw [hfull hq hq']; exact ⟨rfl, rfl⟩
      | array h1' => rw [h1] at h1'; cases h1'; exact absurd (by decide) hk
      | map h1' => rw [h1] at h1'; cases h1'; exact absurd (by decide) hk
      | enum h1' => rw [h1] at h1'; cases h1'; exact absurd (by decide) hk
      | fixed h1' => rw [h1] at h1'; cases h1'; exact absurd (by decide) hk
      | record h1' => rw [h1] at h1'; cases h1'; exact absurd (by decide) hk
    · intro name enc ts' ds' h'; cases h'; exact ⟨rfl, rfl⟩
    · intro name enc j js t ts ds ds' _ _ ih1 ih2 ts' ds'' h'
      cases h' with
      | cons a b =>
        obtain ⟨rfl, rfl⟩ := ih1 a
        obtain ⟨rfl, rfl⟩ := ih2 b
        exact ⟨rfl, rfl⟩
    · intro ns fs' ds' h'; cases h'; exact ⟨rfl, rfl⟩
    · intro ns o js j name t al doc tags fs ds ds' h1 h2 _ h4 h5 h6 _ ih1 ih2 fs' ds'' h'
      cases h' with
      | cons h1' h2' h3' h4' h5' h6' h7' =>
        rw [h1] at h1'; cases h1'
        rw [h2] at h2'; cases h2'
        obtain ⟨rfl, rfl⟩ := ih1 h3'
        obtain ⟨rfl, rfl⟩ := ih2 h7'
        rw [hops h4 h4', hopt h5 h5', hopt h6 h6']; exact ⟨rfl, rfl⟩
  exact key h h'

end Verif
