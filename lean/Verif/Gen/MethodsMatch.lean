import Verif.Gen.MethodsSim
/-
All operations of the targets of a generated package go together with those of Gen/Memory.
-/
set_option linter.unusedSimpArgs false
namespace Verif
open Spec.GoT
open Spec.Go (goTypeOf nullTy GoTy Within)

section
variable {P : Pack} {nm : Namer} {n : NS} {t0 : PTy} {t : PTy}

theorem setBoolean_same (hc : CarriesAll P nm n t0) {g : Gv} {tg : MTgt} {h : Mem} (hp : Points nm n t0 g tg) (v : Bool) :
    SameEnd (SameTarget nm n t0) (P.does "SetBoolean" [.bool v] (g, h)) (memSet (fun t => genSetBoolean t v) (tg, h)) := by
  refine sets_same hc hp _ _ _ (fun _ => rfl) ⟨0, _, rfl, rfl, _, rfl⟩ (lib_setBoolean v) ?_ ?_ (.inr ?_) ?_ ?_ ?_
  · intros; exact ⟨0, _, rfl, rfl, _, rfl⟩
  · intros; exact ⟨0, _, rfl, rfl, _, rfl⟩
  · intros; exact ⟨0, _, rfl, rfl, _, rfl⟩
  · intros; exact ⟨0, _, rfl, rfl, _, rfl⟩
  · intro _ _; exact ⟨0, _, rfl, rfl, .inl ⟨⟨_, rfl⟩, fun _ => rfl⟩⟩
  · intro _ _; exact ⟨0, _, rfl, rfl, .inl ⟨⟨_, rfl⟩, fun _ => rfl⟩⟩

theorem setInt_same (hc : CarriesAll P nm n t0) {g : Gv} {tg : MTgt} {h : Mem} (hp : Points nm n t0 g tg) (v : BitVec 32) :
    SameEnd (SameTarget nm n t0) (P.does "SetInt" [.int32 v] (g, h)) (memSet (fun t => genSetInt t v) (tg, h)) := by
  refine sets_same hc hp _ _ _ (fun _ => rfl) ⟨1, _, rfl, rfl, _, rfl⟩ (lib_setInt v) ?_ ?_ (.inr ?_) ?_ ?_ ?_
  · intros; exact ⟨1, _, rfl, rfl, _, rfl⟩
  · intros; exact ⟨1, _, rfl, rfl, _, rfl⟩
  · intros; exact ⟨1, _, rfl, rfl, _, rfl⟩
  · intros; exact ⟨1, _, rfl, rfl, _, rfl⟩
  · intro W T; exact ⟨1, _, rfl, rfl, .inr fun p h => run_enumSetInt W T p v h⟩
  · intro _ _; exact ⟨1, _, rfl, rfl, .inl ⟨⟨_, rfl⟩, fun _ => rfl⟩⟩

theorem setFloat_same (hc : CarriesAll P nm n t0) {g : Gv} {tg : MTgt} {h : Mem} (hp : Points nm n t0 g tg) (v : BitVec 32) :
    SameEnd (SameTarget nm n t0) (P.does "SetFloat" [.float32 v] (g, h)) (memSet (fun t => genSetFloat t v) (tg, h)) := by
  refine sets_same hc hp _ _ _ (fun _ => rfl) ⟨3, _, rfl, rfl, _, rfl⟩ (lib_setFloat v) ?_ ?_ (.inr ?_) ?_ ?_ ?_
  · intros; exact ⟨3, _, rfl, rfl, _, rfl⟩
  · intros; exact ⟨3, _, rfl, rfl, _, rfl⟩
  · intros; exact ⟨2, _, rfl, rfl, _, rfl⟩
  · intros; exact ⟨3, _, rfl, rfl, _, rfl⟩
  · intro _ _; exact ⟨3, _, rfl, rfl, .inl ⟨⟨_, rfl⟩, fun _ => rfl⟩⟩
  · intro _ _; exact ⟨3, _, rfl, rfl, .inl ⟨⟨_, rfl⟩, fun _ => rfl⟩⟩

theorem setDouble_same (hc : CarriesAll P nm n t0) {g : Gv} {tg : MTgt} {h : Mem} (hp : Points nm n t0 g tg) (v : BitVec 64) :
    SameEnd (SameTarget nm n t0) (P.does "SetDouble" [.float64 v] (g, h)) (memSet (fun t => genSetDouble t v) (tg, h)) := by
  refine sets_same hc hp _ _ _ (fun _ => rfl) ⟨5, _, rfl, rfl, _, rfl⟩ (lib_setDouble v) ?_ ?_ (.inr ?_) ?_ ?_ ?_
  · intros; exact ⟨4, _, rfl, rfl, _, rfl⟩
  · intros; exact ⟨4, _, rfl, rfl, _, rfl⟩
  · intros; exact ⟨3, _, rfl, rfl, _, rfl⟩
  · intros; exact ⟨4, _, rfl, rfl, _, rfl⟩
  · intro _ _; exact ⟨5, _, rfl, rfl, .inl ⟨⟨_, rfl⟩, fun _ => rfl⟩⟩
  · intro _ _; exact ⟨4, _, rfl, rfl, .inl ⟨⟨_, rfl⟩, fun _ => rfl⟩⟩

theorem setBytes_same (hc : CarriesAll P nm n t0) {g : Gv} {tg : MTgt} {h : Mem} (hp : Points nm n t0 g tg) (v : List Byte) :
    SameEnd (SameTarget nm n t0) (P.does "SetBytes" [.bytes v] (g, h)) (memSet (fun t => genSetBytes t v) (tg, h)) := by
  refine sets_same hc hp _ _ _ (fun _ => rfl) ⟨6, _, rfl, rfl, _, rfl⟩ (lib_setBytes v) ?_ ?_ (.inr ?_) ?_ ?_ ?_
  · intros; exact ⟨5, _, rfl, rfl, _, rfl⟩
  · intros; exact ⟨5, _, rfl, rfl, _, rfl⟩
  · intros; exact ⟨4, _, rfl, rfl, _, rfl⟩
  · intros; exact ⟨5, _, rfl, rfl, _, rfl⟩
  · intro _ _; exact ⟨6, _, rfl, rfl, .inl ⟨⟨_, rfl⟩, fun _ => rfl⟩⟩
  · intro W k; exact ⟨5, _, rfl, rfl, .inr fun T p h ha => run_fixedSetBytes W T ha p v h⟩

theorem setString_same (hc : CarriesAll P nm n t0) {g : Gv} {tg : MTgt} {h : Mem} (hp : Points nm n t0 g tg) (v : List Byte) :
    SameEnd (SameTarget nm n t0) (P.does "SetString" [.str v] (g, h)) (memSet (fun t => genSetString t v) (tg, h)) := by
  refine sets_same hc hp _ _ _ (fun _ => rfl) ⟨7, _, rfl, rfl, _, rfl⟩ (lib_setString v) ?_ ?_ (.inr ?_) ?_ ?_ ?_
  · intros; exact ⟨6, _, rfl, rfl, _, rfl⟩
  · intros; exact ⟨6, _, rfl, rfl, _, rfl⟩
  · intros; exact ⟨5, _, rfl, rfl, _, rfl⟩
  · intros; exact ⟨6, _, rfl, rfl, _, rfl⟩
  · intro _ _; exact ⟨7, _, rfl, rfl, .inl ⟨⟨_, rfl⟩, fun _ => rfl⟩⟩
  · intro _ _; exact ⟨6, _, rfl, rfl, .inl ⟨⟨_, rfl⟩, fun _ => rfl⟩⟩

theorem setLong_same (hc : CarriesAll P nm n t0) {g : Gv} {tg : MTgt} {h : Mem} (hp : Points nm n t0 g tg) (v : BitVec 64) :
    SameEnd (SameTarget nm n t0) (P.does "SetLong" [.int64 v] (g, h)) (memSetLong (tg, h) v) := by
  have hrest : (∀ us p, tg ≠ .union us p) →
      SameEnd (SameTarget nm n t0) (P.does "SetLong" [.int64 v] (g, h)) (memSet (fun t => genSetLong t v) (tg, h)) := by
    intro hne
    refine sets_same hc hp _ _ _ (fun _ => rfl) ⟨2, _, rfl, rfl, _, rfl⟩ (lib_setLong v) ?_ ?_ (.inl hne) ?_ ?_ ?_
    · intros; exact ⟨2, _, rfl, rfl, _, rfl⟩
    · intros; exact ⟨2, _, rfl, rfl, _, rfl⟩
    · intros; exact ⟨2, _, rfl, rfl, _, rfl⟩
    · intro _ _; exact ⟨2, _, rfl, rfl, .inl ⟨⟨_, rfl⟩, fun _ => rfl⟩⟩
    · intro _ _; exact ⟨2, _, rfl, rfl, .inl ⟨⟨_, rfl⟩, fun _ => rfl⟩⟩
  cases tg with
  | leaf l p => exact hrest (fun _ _ h => by cases h)
  | record fs p => exact hrest (fun _ _ h => by cases h)
  | array t p => exact hrest (fun _ _ h => by cases h)
  | map t p w => exact hrest (fun _ _ h => by cases h)
  | bad => exact hrest (fun _ _ h => by cases h)
  | union us p => cases hp.kind hc with
    | union hf hw hi =>
      rw [pack_does_own hf]
      exact void_did (s := "SetLong") (by rw [hi]; rfl) (has_union (hc _ hw) 6 rfl rfl) hp (by rw [hi]; exact run_unionSetLong (hc _ hw) _ v h)

/-! ### Parts -/

theorem get_same (hc : CarriesAll P nm n t0) {g : Gv} {tg : MTgt} {h : Mem} (hp : Points nm n t0 g tg) (i : Int) :
    SameEnd (SameTarget nm n t0) (P.gets "Get" [.int i] (g, h)) (memGet n.env (tg, h) i) := by
  cases hp.kind hc with
  | null hg => subst hg; rw [gets_null lib_get]; rfl
  | prim hl hg => subst hg; rw [gets_leaf lib_get hl]; rfl
  | array hf hw hi =>
    rw [pack_gets_own hf, opens_stub (s := "Get") (by rw [hi]; rfl) (has_array (hc _ hw) 8 rfl rfl) rfl]; rfl
  | map hf hw hi =>
    rw [pack_gets_own hf, opens_stub (s := "Get") (by rw [hi]; rfl) (has_map (hc _ hw) 8 rfl rfl) rfl]; rfl
  | union hf hw hi =>
    rw [pack_gets_own hf]
    exact opens_gives (s := "Get") (by rw [hi]; rfl) (has_union (hc _ hw) 7 rfl rfl)
      (by rw [hi]; exact run_unionGet hc hw (fun t ht => hw.trans (.member ht (.self _))) _ i h)
  | record hf hw hd hk hi =>
    rw [pack_gets_own hf]
    exact opens_gives (s := "Get") (by rw [hi]; rfl) (has_record (hc _ hw) hd hk 8 rfl rfl)
      (by rw [hi]; exact run_recordGet hc hw hd hk (fun f hf => hw.trans (.field hd hk hf (.self _))) _ i h)
  | enum hf hw hd hk hi =>
    rw [pack_gets_own hf, opens_stub (s := "Get") (by rw [hi]; rfl) (has_enum (hc _ hw) hd hk 8 rfl rfl) rfl]; rfl
  | fixed hf hw hd hk hi =>
    rw [pack_gets_own hf, opens_stub (s := "Get") (by rw [hi]; rfl) (has_fixed (hc _ hw) hd hk 8 rfl rfl) rfl]; rfl

theorem appendMap_same (hc : CarriesAll P nm n t0) {g : Gv} {tg : MTgt} {h : Mem} (hp : Points nm n t0 g tg) (k : List Byte) :
    SameEnd (SameTarget nm n t0) (P.gets "AppendMap" [.str k] (g, h)) (memAppendMap n.env P.grow (tg, h) k) := by
  cases hp.kind hc with
  | null hg => subst hg; rw [gets_null lib_appendMap]; rfl
  | prim hl hg => subst hg; rw [gets_leaf lib_appendMap hl]; rfl
  | array hf hw hi =>
    rw [pack_gets_own hf, opens_stub (s := "AppendMap") (by rw [hi]; rfl) (has_array (hc _ hw) 9 rfl rfl) rfl]; rfl
  | map hf hw hi =>
    rw [pack_gets_own hf]
    exact opens_gives (s := "AppendMap") (by rw [hi]; rfl) (has_map (hc _ hw) 13 rfl rfl)
      (by rw [hi]; exact run_mapAppend hc (hw.trans (.value (.self _))) _ _ k h _)
  | union hf hw hi =>
    rw [pack_gets_own hf, opens_stub (s := "AppendMap") (by rw [hi]; rfl) (has_union (hc _ hw) 11 rfl rfl) rfl]; rfl
  | record hf hw hd hk hi =>
    rw [pack_gets_own hf, opens_stub (s := "AppendMap") (by rw [hi]; rfl) (has_record (hc _ hw) hd hk 10 rfl rfl) rfl]; rfl
  | enum hf hw hd hk hi =>
    rw [pack_gets_own hf, opens_stub (s := "AppendMap") (by rw [hi]; rfl) (has_enum (hc _ hw) hd hk 10 rfl rfl) rfl]; rfl
  | fixed hf hw hd hk hi =>
    rw [pack_gets_own hf, opens_stub (s := "AppendMap") (by rw [hi]; rfl) (has_fixed (hc _ hw) hd hk 9 rfl rfl) rfl]; rfl

theorem appendArray_same (hc : CarriesAll P nm n t0) {g : Gv} {tg : MTgt} {h : Mem} (hp : Points nm n t0 g tg) :
    SameEnd (SameTarget nm n t0) (P.gets "AppendArray" [] (g, h)) (memAppendArray n.env P.grow (tg, h)) := by
  cases hp.kind hc with
  | null hg => subst hg; rw [gets_null lib_appendArray]; rfl
  | prim hl hg => subst hg; rw [gets_leaf lib_appendArray hl]; rfl
  | array hf hw hi =>
    rw [pack_gets_own hf]
    exact opens_gives (s := "AppendArray") (by rw [hi]; rfl) (has_array (hc _ hw) 14 rfl rfl)
      (by rw [hi]; exact run_arrayAppend hc (hw.trans (.item (.self _))) _ h _)
  | map hf hw hi =>
    rw [pack_gets_own hf, opens_stub (s := "AppendArray") (by rw [hi]; rfl) (has_map (hc _ hw) 14 rfl rfl) rfl]; rfl
  | union hf hw hi =>
    rw [pack_gets_own hf, opens_stub (s := "AppendArray") (by rw [hi]; rfl) (has_union (hc _ hw) 12 rfl rfl) rfl]; rfl
  | record hf hw hd hk hi =>
    rw [pack_gets_own hf, opens_stub (s := "AppendArray") (by rw [hi]; rfl) (has_record (hc _ hw) hd hk 11 rfl rfl) rfl]; rfl
  | enum hf hw hd hk hi =>
    rw [pack_gets_own hf, opens_stub (s := "AppendArray") (by rw [hi]; rfl) (has_enum (hc _ hw) hd hk 11 rfl rfl) rfl]; rfl
  | fixed hf hw hd hk hi =>
    rw [pack_gets_own hf, opens_stub (s := "AppendArray") (by rw [hi]; rfl) (has_fixed (hc _ hw) hd hk 10 rfl rfl) rfl]; rfl

/-! ### The rest -/

theorem nullField_same (hc : CarriesAll P nm n t0) {g : Gv} {tg : MTgt} {h : Mem} (hp : Points nm n t0 g tg) (i : Int) :
    SameEnd (SameTarget nm n t0) (P.does "NullField" [.int i] (g, h)) (memNullField (tg, h) i) := by
  cases hp.kind hc with
  | null hg => subst hg; rw [does_null lib_nullField]; rfl
  | prim hl hg => subst hg; rw [does_leaf lib_nullField hl]; rfl
  | array hf hw hi =>
    rw [pack_does_own hf]
    exact void_did (s := "NullField") (by rw [hi]; rfl) (has_array (hc _ hw) 13 rfl rfl) hp (by rw [hi]; exact run_arrayNull _ _ i h)
  | map hf hw hi =>
    rw [pack_does_own hf]
    exact void_did (s := "NullField") (by rw [hi]; rfl) (has_map (hc _ hw) 11 rfl rfl) hp (by rw [hi]; exact run_mapNull _ _ _ i h)
  | union hf hw hi =>
    rw [pack_does_own hf, void_stub (s := "NullField") (by rw [hi]; rfl) (has_union (hc _ hw) 8 rfl rfl) rfl]; rfl
  | record hf hw hd hk hi =>
    rw [pack_does_own hf]
    exact void_did (s := "NullField") (by rw [hi]; rfl) (has_record (hc _ hw) hd hk 9 rfl rfl) hp
      (by rw [hi]; exact run_recordNull (hc _ hw) hd hk _ i h)
  | enum hf hw hd hk hi =>
    rw [pack_does_own hf, void_stub (s := "NullField") (by rw [hi]; rfl) (has_enum (hc _ hw) hd hk 12 rfl rfl) rfl]; rfl
  | fixed hf hw hd hk hi =>
    rw [pack_does_own hf, void_stub (s := "NullField") (by rw [hi]; rfl) (has_fixed (hc _ hw) hd hk 11 rfl rfl) rfl]; rfl

theorem hintSize_same (hc : CarriesAll P nm n t0) {g : Gv} {tg : MTgt} {h : Mem} (hp : Points nm n t0 g tg) (c : BitVec 64) :
    SameEnd (SameTarget nm n t0) (P.does "HintSize" [.int c.toInt] (g, h)) (memHintSize P.lim (tg, h) c) := by
  cases hp.kind hc with
  | null hg => subst hg; rw [does_null lib_hintSize]; rfl
  | prim hl hg => subst hg; rw [does_leaf lib_hintSize hl]; rfl
  | array hf hw hi =>
    rw [pack_does_own hf]
    exact void_did (s := "HintSize") (by rw [hi]; rfl) (has_array (hc _ hw) 12 rfl rfl) hp (by rw [hi]; exact run_arrayHint _ _ c h)
  | map hf hw hi =>
    rw [pack_does_own hf]
    exact void_did (s := "HintSize") (by rw [hi]; rfl) (has_map (hc _ hw) 10 rfl rfl) hp (by rw [hi]; exact run_mapHint _ _ _ c h)
  | union hf hw hi =>
    rw [pack_does_own hf, void_stub (s := "HintSize") (by rw [hi]; rfl) (has_union (hc _ hw) 9 rfl rfl) rfl]; rfl
  | record hf hw hd hk hi =>
    rw [pack_does_own hf, void_stub (s := "HintSize") (by rw [hi]; rfl) (has_record (hc _ hw) hd hk 12 rfl rfl) rfl]; rfl
  | enum hf hw hd hk hi =>
    rw [pack_does_own hf, void_stub (s := "HintSize") (by rw [hi]; rfl) (has_enum (hc _ hw) hd hk 13 rfl rfl) rfl]; rfl
  | fixed hf hw hd hk hi =>
    rw [pack_does_own hf, void_stub (s := "HintSize") (by rw [hi]; rfl) (has_fixed (hc _ hw) hd hk 12 rfl rfl) rfl]; rfl

theorem finalize_same (hc : CarriesAll P nm n t0) {g : Gv} {tg : MTgt} {h : Mem} (hp : Points nm n t0 g tg) :
    SameEnd (SameTarget nm n t0) (P.does "Finalize" [] (g, h)) (memFinalize (tg, h)) := by
  cases hp.kind hc with
  | null hg => subst hg; rw [finalize_null]; exact ⟨hp, rfl⟩
  | prim hl hg => subst hg; rw [finalize_leaf hl]; exact ⟨hp, rfl⟩
  | array hf hw hi =>
    rw [pack_does_own hf, void_empty (s := "Finalize") (by rw [hi]; rfl) (has_array (hc _ hw) 10 rfl rfl) rfl]; exact ⟨hp, rfl⟩
  | map hf hw hi =>
    rw [pack_does_own hf]
    exact void_did (s := "Finalize") (by rw [hi]; rfl) (has_map (hc _ hw) 12 rfl rfl) hp (by rw [hi]; exact run_mapFinalize _ _ _ h)
  | union hf hw hi =>
    rw [pack_does_own hf, void_empty (s := "Finalize") (by rw [hi]; rfl) (has_union (hc _ hw) 13 rfl rfl) rfl]; exact ⟨hp, rfl⟩
  | record hf hw hd hk hi =>
    rw [pack_does_own hf, void_empty (s := "Finalize") (by rw [hi]; rfl) (has_record (hc _ hw) hd hk 13 rfl rfl) rfl]; exact ⟨hp, rfl⟩
  | enum hf hw hd hk hi =>
    rw [pack_does_own hf, void_empty (s := "Finalize") (by rw [hi]; rfl)
      (has_enum (hc _ hw) hd hk 14 rfl rfl) rfl]; exact ⟨hp, rfl⟩
  | fixed hf hw hd hk hi =>
    rw [pack_does_own hf, void_empty (s := "Finalize") (by rw [hi]; rfl) (has_fixed (hc _ hw) hd hk 13 rfl rfl) rfl]; exact ⟨hp, rfl⟩

/-! ### Defaults -/

theorem memSetDefault_record {env : Env} {dv : Field → Val} {fs : List Field} {p : Place} {h : Mem} {i : Int} {s : MState}
    (he : memSetDefault env dv (.record fs p, h) i = .ok s) : s.1 = .record fs p := by
  unfold memSetDefault at he
  simp only at he
  by_cases h0 : i < 0
  · rw [if_pos h0] at he; cases he
  rw [if_neg h0] at he
  cases hf : fs[i.toNat]? with
  | none => rw [hf] at he; cases he
  | some f =>
    rw [hf] at he
    simp only at he
    by_cases h1 : f.dflt.isNone
    · rw [if_pos h1] at he; cases he
    · rw [if_neg h1] at he; cases he; rfl

variable {dflt : Str → Option (Place → Int → Mem → Except Err Mem)} {dv : Field → Val}

theorem setDefault_same (hc : CarriesAll P nm n t0) (hd : Defaulting dflt nm n t0 dv) {g : Gv} {tg : MTgt} {h : Mem} (hp : Points nm n t0 g tg) (i : Int) :
    SameEnd (SameTarget nm n t0) (P.setDefault dflt (g, h) i) (memSetDefault n.env dv (tg, h) i) := by
  cases hp.kind hc with
  | null hg =>
    subst hg
    show SameEnd _ (P.does "SetDefault" [.int i] (.nullVal, h)) _
    rw [does_null lib_setDefault]; rfl
  | prim hl hg =>
    subst hg
    unfold Pack.setDefault
    simp only [foreign_lit hl]
    rw [does_leaf lib_setDefault hl]; rfl
  | array hf hw hi =>
    unfold Pack.setDefault
    simp only [hf, hi]
    rw [void_stub (s := "SetDefault") (by rw [hi]; rfl) (has_array (hc _ hw) 11 rfl rfl) rfl]; rfl
  | map hf hw hi =>
    unfold Pack.setDefault
    simp only [hf, hi]
    rw [void_stub (s := "SetDefault") (by rw [hi]; rfl) (has_map (hc _ hw) 9 rfl rfl) rfl]; rfl
  | union hf hw hi =>
    unfold Pack.setDefault
    simp only [hf, hi, hd.union _ _ _ hw]
    rw [void_stub (s := "SetDefault") (by rw [hi]; rfl) (has_union (hc _ hw) 10 rfl rfl) rfl]; rfl
  | record hf hw hd' hk hi =>
    obtain ⟨f, hf1, hf2⟩ := hd.record _ _ _ _ hw hd' hk
    unfold Pack.setDefault
    simp only [hf, hi, hf1, hf2]
    cases he : memSetDefault n.env dv (.record (List.map PField.erase _) _, h) i with
    | error e => rfl
    | ok s =>
      obtain ⟨s1, s2⟩ := s
      have := memSetDefault_record he
      simp only at this
      subst this
      exact ⟨hp, rfl⟩
  | enum hf hw hd hk hi =>
    unfold Pack.setDefault
    simp only [hf, hi]
    rw [void_stub (s := "SetDefault") (by rw [hi]; rfl) (has_enum (hc _ hw) hd hk 9 rfl rfl) rfl]; rfl
  | fixed hf hw hd hk hi =>
    unfold Pack.setDefault
    simp only [hf, hi]
    rw [void_stub (s := "SetDefault") (by rw [hi]; rfl) (has_fixed (hc _ hw) hd hk 14 rfl rfl) rfl]; rfl

/-- The targets of the generated package do what those of Gen/Memory do. -/
theorem ops_match (hc : CarriesAll P nm n t0) (hd : Defaulting dflt nm n t0 dv) :
    (P.ops dflt).Matches (memOps n.env P.lim dv P.grow) (SameTarget nm n t0) where
  setBoolean {t u} v := by obtain ⟨g, h⟩ := t; obtain ⟨tg, h'⟩ := u; rintro ⟨hp, rfl⟩; exact setBoolean_same hc hp v
  setInt {t u} v := by obtain ⟨g, h⟩ := t; obtain ⟨tg, h'⟩ := u; rintro ⟨hp, rfl⟩; exact setInt_same hc hp v
  setLong {t u} v := by obtain ⟨g, h⟩ := t; obtain ⟨tg, h'⟩ := u; rintro ⟨hp, rfl⟩; exact setLong_same hc hp v
  setFloat {t u} v := by obtain ⟨g, h⟩ := t; obtain ⟨tg, h'⟩ := u; rintro ⟨hp, rfl⟩; exact setFloat_same hc hp v
  setDouble {t u} v := by obtain ⟨g, h⟩ := t; obtain ⟨tg, h'⟩ := u; rintro ⟨hp, rfl⟩; exact setDouble_same hc hp v
  setBytes {t u} v := by obtain ⟨g, h⟩ := t; obtain ⟨tg, h'⟩ := u; rintro ⟨hp, rfl⟩; exact setBytes_same hc hp v
  setString {t u} v := by obtain ⟨g, h⟩ := t; obtain ⟨tg, h'⟩ := u; rintro ⟨hp, rfl⟩; exact setString_same hc hp v
  get {t u} i := by obtain ⟨g, h⟩ := t; obtain ⟨tg, h'⟩ := u; rintro ⟨hp, rfl⟩; exact get_same hc hp i
  put _ h1 h2 := ⟨h1.1, h2.2⟩
  setDefault {t u} i := by obtain ⟨g, h⟩ := t; obtain ⟨tg, h'⟩ := u; rintro ⟨hp, rfl⟩; exact setDefault_same hc hd hp i
  appendMap {t u} k := by obtain ⟨g, h⟩ := t; obtain ⟨tg, h'⟩ := u; rintro ⟨hp, rfl⟩; exact appendMap_same hc hp k
  putMap _ h1 h2 := ⟨h1.1, h2.2⟩
  appendArray {t u} := by obtain ⟨g, h⟩ := t; obtain ⟨tg, h'⟩ := u; rintro ⟨hp, rfl⟩; exact appendArray_same hc hp
  putArray h1 h2 := ⟨h1.1, h2.2⟩
  nullField {t u} i := by obtain ⟨g, h⟩ := t; obtain ⟨tg, h'⟩ := u; rintro ⟨hp, rfl⟩; exact nullField_same hc hp i
  hintSize {t u} c := by obtain ⟨g, h⟩ := t; obtain ⟨tg, h'⟩ := u; rintro ⟨hp, rfl⟩; exact hintSize_same hc hp c
  finalize {t u} := by obtain ⟨g, h⟩ := t; obtain ⟨tg, h'⟩ := u; rintro ⟨hp, rfl⟩; exact finalize_same hc hp
end
end Verif
