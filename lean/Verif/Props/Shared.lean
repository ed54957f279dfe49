import Verif.Generic.Apart
import Verif.Props.Generic
/-
Property C80: the values that `Deserialize` of package v10/generic returns belong to the caller.

* `Acts σ r (kept r) may W W'` (Generic/Heap): after any number of calls of `Deserialize`, with codecs
  for any writer's schemas and the parsed reader's schema `r`, and any number of changes the program
  makes to objects it can get at that are in `may`, memory and variables `W` have become `W'`.
* `Build (kept r) H g v H'`: the call of `Deserialize` that decodes the value `g` returns the
  variable `v`, and memory `H` becomes `H'`.
* `MadeOf H g v fp` (Spec/Heap): in memory `H`, the variable `v` shows the value `g`, and it is made of the
  objects `fp`, each listed once for every place where it is used; `Shows H g v`: for some `fp`.
-/
namespace Verif.Props
open Verif
set_option linter.unusedVariables false

/-- Where the parsed schema keeps the defaults of its fields. -/
def kept (r : Schema) : Roots := (loadAll r.env.defaults []).1

/-- Memory after the reader's schema has been parsed, and no variables. -/
def started (r : Schema) : World := ⟨(loadAll r.env.defaults []).2, []⟩

theorem kept_ok (r : Schema) : RootsOK (started r).heap (kept r) (· < (started r).heap.length) := by
  intro j v h
  obtain ⟨fp, h1, h2⟩ := (loadAll_made r.env.defaults []).2 j v h
  exact ⟨fp, h1, fun a ha => (h2 a ha).2⟩

theorem kept_lt (r : Schema) : ∀ j b, (j, .ref b) ∈ kept r → b < (started r).heap.length := by
  intro j b h
  obtain ⟨fp, h1, h2⟩ := kept_ok r j _ h
  exact h2 b (h1.sealed.roots b (by simp))

theorem started_tight (r : Schema) : ClosedIn (· < (started r).heap.length) (started r).heap (started r).held :=
  loadAll_tight _ _ ⟨by simp, by simp⟩

section
variable {R : Type} {σ : Setting R} {r : Schema}

/-- `Deserialize` can always return what it has decoded. -/
theorem decode_possible {w : Schema} {rd rd' : R} {g : GVal} (hg : GDeserializes σ w r rd (.value g rd')) (H : Heap) :
    ∃ v H', Build (kept r) H g v H' :=
  build_exists (fun j hj => loadAll_mem hj []) g H (hg.uses (defaultsIn_env r.env))

/-! ### What holds for all schemas, if the program does not change the defaults -/

/-- The program writes to no object that the parsed schema keeps a default in. -/
def sparing (r : Schema) : Nat → Prop := fun a => (started r).heap.length ≤ a

/-- Whatever the program has decoded, made and changed before, if it has not changed the defaults in
the schema: a call returns a variable that shows what was decoded, and changes nothing else. It
is made of new objects and of objects that the schema keeps defaults in. -/
theorem decoded_shows_partial {W : World} (hW : Acts σ r (kept r) (sparing r) (started r) W)
    {w : Schema} {rd rd' : R} {g : GVal} (hg : GDeserializes σ w r rd (.value g rd')) {v : HVal} {H' : Heap}
    (hb : Build (kept r) W.heap g v H') :
    (∃ fp, MadeOf H' g v fp ∧ ∀ a ∈ fp, W.heap.length ≤ a ∨ a < (started r).heap.length) ∧
      ∀ a, a < W.heap.length → H'[a]? = W.heap[a]? := by
  obtain ⟨-, hs⟩ := hW.closed_same (S := fun _ => True) (fun _ _ _ => trivial) (fun _ _ => trivial)
    ⟨fun _ _ _ _ _ _ => trivial, fun _ _ => trivial⟩
  have hr : RootsOK W.heap (kept r) (· < (started r).heap.length) := by
    intro j v hm
    obtain ⟨fp, h1, h2⟩ := kept_ok r j v hm
    refine ⟨fp, h1.same fun a ha => hs a (h2 a ha) (.inr ?_), h2⟩
    have := h2 a ha
    simp only [sparing]
    omega
  obtain ⟨fp, h1, h2⟩ := hb.made hr
  refine ⟨⟨fp, h1, fun a ha => ?_⟩, fun a ha => sameAt_prefix hb.grows (fp := [a]) (by simpa using ha) a (by simp)⟩
  rcases h2.1 a ha with h | h
  · exact .inl h.1
  · exact .inr h

/-- And whatever the program does from then on with all its other variables: if it does not
change the defaults in the schema, what was returned stays as it is. -/
theorem decoded_stays_partial {W : World} (hW : Acts σ r (kept r) (sparing r) (started r) W)
    {w : Schema} {rd rd' : R} {g : GVal} (hg : GDeserializes σ w r rd (.value g rd')) {v : HVal} {H' : Heap}
    (hb : Build (kept r) W.heap g v H') {W' : World} (hW' : Acts σ r (kept r) (sparing r) ⟨H', W.held⟩ W') :
    Shows W'.heap g v := by
  obtain ⟨⟨fp, h1, h2⟩, h3⟩ := decoded_shows_partial hW hg hb
  have ht := hW.tight (kept_lt r) (Nat.le_refl _) (started_tight r)
  have hl := hW.len
  have hg := hb.grows.length_le
  obtain ⟨-, hs⟩ := hW'.closed_same (S := fun a => a < W.heap.length ∨ H'.length ≤ a)
    (fun j b hb => .inl (Nat.lt_of_lt_of_le (kept_lt r j b hb) hl)) (fun a ha => .inr ha) (by
      refine ⟨fun a o ha ho b hb => ?_, fun b hb => .inl (ht.vars b hb)⟩
      rcases ha with ha | ha
      · simp only [h3 a ha] at ho
        exact .inl (ht.objs a o ha ho b hb)
      · have : a < H'.length := lt_of_get ho
        omega)
  refine ⟨fp, h1.same fun a ha => hs a (h1.sealed.lt ha) ?_⟩
  rcases h2 a ha with h | h
  · left
    have := h1.sealed.lt ha
    omega
  · right
    simp only [sparing]
    omega

/-! ### What holds if all defaults are scalars -/

/-- The defaults in the schema are null, booleans, numbers and strings. -/
def ScalarDefaults (r : Schema) : Prop := ∀ j ∈ r.env.defaults, j.scalar = true

theorem started_scalar (hs : ScalarDefaults r) : (started r).heap = [] := (loadAll_scalar hs []).1

theorem Acts.mono {roots : Roots} {may may' : Nat → Prop} (h : ∀ a, may a → may' a) {W W' : World} (hW : Acts σ r roots may W W') :
    Acts σ r roots may' W W' := by
  induction hW with
  | none => exact .none
  | more _ h1 ih =>
    refine .more ih ?_
    cases h1 with
    | decode h2 h3 => exact .decode h2 h3
    | make h2 => exact .make h2
    | write h2 h3 h4 => exact .write h2 (h _ h3) h4

/-- C80, if all defaults are scalars: whatever the program has decoded, made and changed before, a call
returns a variable that shows what was decoded, made of objects that are all new and each used
once, and changes nothing else. -/
theorem decoded_own_partial (hs : ScalarDefaults r) {W : World} (hW : Acts σ r (kept r) (fun _ => True) (started r) W)
    {w : Schema} {rd rd' : R} {g : GVal} (hg : GDeserializes σ w r rd (.value g rd')) {v : HVal} {H' : Heap}
    (hb : Build (kept r) W.heap g v H') :
    (∃ fp, MadeOf H' g v fp ∧ fp.Nodup ∧ ∀ a ∈ fp, W.heap.length ≤ a) ∧ ∀ a, a < W.heap.length → H'[a]? = W.heap[a]? := by
  have hr : RootsOK W.heap (kept r) (fun _ => False) := by
    intro j v hm
    obtain ⟨rfl, hj⟩ := (loadAll_scalar hs []).2 j v hm
    refine ⟨[], ?_, by simp⟩
    cases j <;> simp_all [JsonMadeOf, Json.scalar]
  obtain ⟨fp, h1, h2⟩ := hb.made hr
  have h3 := h2.toFresh (by simp)
  exact ⟨⟨fp, h1, h3.1, fun a ha => (h3.2 a ha).1⟩,
    fun a ha => sameAt_prefix hb.grows (fp := [a]) (by simpa using ha) a (by simp)⟩

/-- C80, if all defaults are scalars: whatever the program does from then on with all its other
variables, what was returned stays as it is. -/
theorem decoded_kept_partial (hs : ScalarDefaults r) {W : World} (hW : Acts σ r (kept r) (fun _ => True) (started r) W)
    {w : Schema} {rd rd' : R} {g : GVal} (hg : GDeserializes σ w r rd (.value g rd')) {v : HVal} {H' : Heap}
    (hb : Build (kept r) W.heap g v H') {W' : World} (hW' : Acts σ r (kept r) (fun _ => True) ⟨H', W.held⟩ W') :
    Shows W'.heap g v := by
  have : ∀ a, True → sparing r a := fun a _ => by simp [sparing, started_scalar hs]
  exact decoded_stays_partial (Acts.mono this hW) hg hb (Acts.mono this hW')

/-- C80, if all defaults are scalars: two values that the program got from two calls, and did not join
itself, have no object in common. -/
theorem decoded_disjoint_partial (hs : ScalarDefaults r) {W : World} (hW : Acts σ r (kept r) (fun _ => True) (started r) W)
    {w : Schema} {rd rd' : R} {g : GVal} (hg : GDeserializes σ w r rd (.value g rd')) {v : HVal} {H' : Heap}
    (hb : Build (kept r) W.heap g v H') {u : HVal} (hu : u ∈ W.held) : ¬∃ a, Reached H' u a ∧ Reached H' v a := by
  rintro ⟨a, h1, h2⟩
  obtain ⟨⟨fp, h3, -, h4⟩, h5⟩ := decoded_own_partial hs hW hg hb
  have ha := h4 a (h3.sealed.reached (by simp) h2)
  have ht := hW.tight (kept_lt r) (Nat.le_refl _) (started_tight r)
  have : ClosedIn (· < W.heap.length) H' W.held := by
    refine ⟨fun b o hb ho c hc => ?_, ht.vars⟩
    rw [h5 b hb] at ho
    exact ht.objs b o hb ho c hc
  have : a < W.heap.length := this.reached hu h1
  omega


/-- A writer's record with an int and an array of ints, and a reader's with a scalar default besides. -/
def ownW : Schema := one qR [{ name := "n".toList, ty := .int }, { name := "l".toList, ty := .array .int }]
def ownR : Schema := one qR [{ name := "n".toList, ty := .int }, { name := "l".toList, ty := .array .int },
  { name := "x".toList, ty := .string, dflt := some (.str "a".toList) }]
def ownG : GVal := .record [("n".toList, .int 5), ("l".toList, .list [.int 7]), ("x".toList, .json (.str "a".toList))]

theorem own_decodes : ∃ rd', GDeserializes (demo true) ownW ownR [[10, 2, 14, 0]] (.value ownG rd') := by
  have hs := suited_of (w := ownW) (r := ownR) (by decide +kernel)
  have hg : GSuited ownW ownR := { toSound := hs.toSound, fields := hs.fields, enums := (counted_of (by decide +kernel)).enums }
  obtain ⟨prog, hc⟩ := compiles_of (n := 8) (w := ownW) (r := ownR) (by decide +kernel)
  obtain ⟨rd', h, _⟩ := generic_shows (σ := demo true) hg (demo_delivers true) (by decide) hc
    (d := .record [.int 5, .array [.int 7]]) (e := [10, 2, 14, 0]) (encode_enc (by decide +kernel)) (within_of (by decide +kernel))
    (v := .record [.int 5, .array [.int 7], .int 7]) (by with_unfolding_all rfl) rfl (g := ownG)
    (by with_unfolding_all rfl) (rd := [[10, 2, 14, 0]]) (rest := []) rfl
  exact ⟨rd', h⟩

theorem own_scalar : ScalarDefaults ownR := by
  have : ownR.env.defaults = [.str "a".toList] := by with_unfolding_all rfl
  intro j hj
  rw [this] at hj
  simp at hj
  subst hj
  rfl

/-- The program decodes, empties the array it got, and decodes the same bytes again: it gets the array with
its item, in an object of its own. -/
example : ∃ W : World, Acts (demo true) ownR (kept ownR) (fun _ => True) (started ownR) W ∧ W.heap[0]? = some (.list []) ∧
    .ref 1 ∈ W.held ∧ ∃ v H', Build (kept ownR) W.heap ownG v H' ∧ Shows H' ownG v ∧
      (¬∃ a, Reached H' (.ref 1) a ∧ Reached H' v a) ∧
      ∀ W', Acts (demo true) ownR (kept ownR) (fun _ => True) ⟨H', W.held⟩ W' → Shows W'.heap ownG v := by
  obtain ⟨rd', hd⟩ := own_decodes
  have hk : (kept ownR) = [(.str "a".toList, .atom (.json (.str "a".toList)))] := by with_unfolding_all rfl
  have e : (loadAll ownR.env.defaults []).2 = [] := started_scalar own_scalar
  have h1 : Build (kept ownR) [] ownG (.ref 1) [.list [.atom (.int 7)], .record [("n".toList, .atom (.int 5)), ("l".toList, .ref 0),
      ("x".toList, .atom (.json (.str "a".toList)))]] :=
    .record (.cons .int (.cons (.list (.cons .int .nil)) (.cons (.json (by rw [hk]; simp)) .nil)))
  have hW : Acts (demo true) ownR (kept ownR) (fun _ => True) (started ownR)
      ⟨[.list [], .record [("n".toList, .atom (.int 5)), ("l".toList, .ref 0), ("x".toList, .atom (.json (.str "a".toList)))]],
        [.ref 1]⟩ := by
    have hs : started ownR = ⟨[], []⟩ := by simp only [started, e]
    rw [hs]
    exact .more (.more .none (.decode hd h1)) (.write (a := 0) (o := .list [])
      ⟨.ref 1, by simp, .part (.here rfl) (o := .record _) rfl (by simp [Obj.parts])⟩ trivial (by simp [Obj.parts]))
  obtain ⟨v, H', hb⟩ := decode_possible hd _
  obtain ⟨⟨fp, h2, -⟩, -⟩ := decoded_own_partial own_scalar hW hd hb
  exact ⟨_, hW, rfl, by simp, v, H', hb, ⟨fp, h2⟩, decoded_disjoint_partial own_scalar hW hd hb (by simp),
    fun W' hW' => decoded_kept_partial own_scalar hW hd hb hW'⟩

/-! ### What does not hold -/

/-- A writer's record with a field `n`, and a reader's that has a field `m` besides: a map with the
default `{"k": 1}`. -/
def leakW : Schema := one qR [{ name := "n".toList, ty := .int }]
def leakR : Schema := one qR [{ name := "n".toList, ty := .int },
  { name := "m".toList, ty := .map .int, dflt := some (.obj [("k".toList, .num 1)]) }]

/-- What is decoded from the byte 10. -/
def leakG : GVal := .record [("n".toList, .int 5), ("m".toList, .json (.obj [("k".toList, .num 1)]))]

theorem leak_suited : GSuited leakW leakR :=
  have hs := suited_of (w := leakW) (r := leakR) (by decide +kernel)
  { toSound := hs.toSound, fields := hs.fields, enums := (counted_of (by decide +kernel)).enums }

theorem leak_decodes : ∃ rd', GDeserializes (demo true) leakW leakR [[10]] (.value leakG rd') := by
  obtain ⟨prog, hc⟩ := compiles_of (n := 6) (w := leakW) (r := leakR) (by decide +kernel)
  obtain ⟨rd', h, _⟩ := generic_shows (σ := demo true) leak_suited (demo_delivers true) (by decide) hc
    (d := .record [.int 5]) (e := [10]) (encode_enc (by decide +kernel)) (within_of (by decide +kernel))
    (v := .record [.int 5, .int 7]) (by with_unfolding_all rfl) rfl (g := leakG)
    (by with_unfolding_all rfl) (rd := [[10]]) (rest := []) rfl
  exact ⟨rd', h⟩

theorem leak_kept : kept leakR = [(.obj [("k".toList, .num 1)], .ref 0)] := by with_unfolding_all rfl
theorem leak_started : started leakR = ⟨[.record [("k".toList, .atom (.json (.num 1)))]], []⟩ := by with_unfolding_all rfl

/-- The one way to return `leakG`. -/
theorem leak_build {H H' : Heap} {v : HVal} (h : Build (kept leakR) H leakG v H') :
    v = .ref H.length ∧ H' = H ++ [.record [("n".toList, .atom (.int 5)), ("m".toList, .ref 0)]] := by
  rw [leak_kept] at h
  cases h with
  | record h =>
    cases h with
    | cons h1 h2 =>
      cases h1
      cases h2 with
      | cons h3 h4 =>
        cases h4
        cases h3 with
        | json h5 =>
          simp at h5
          subst h5
          exact ⟨rfl, rfl⟩

theorem leak_builds (H : Heap) : Build (kept leakR) H leakG (.ref H.length)
    (H ++ [.record [("n".toList, .atom (.int 5)), ("m".toList, .ref 0)]]) :=
  .record (.cons .int (.cons (.json (by rw [leak_kept]; simp)) .nil))

/-- C80 fails where a default is a map: the program decodes the byte 10, deletes the entry of the map
`m` in what it got, and decodes the byte 10 again: now it does not get what it got before, for the map
is the default that the schema keeps. (The same byte, decoded first, shows the map with its entry.) -/
theorem default_changed_by_caller :
    (∃ rd', GDeserializes (demo true) leakW leakR [[10]] (.value leakG rd')) ∧
    (∀ v H', Build (kept leakR) (started leakR).heap leakG v H' → Shows H' leakG v) ∧
    ∃ W, Acts (demo true) leakR (kept leakR) (fun _ => True) (started leakR) W ∧
      ∀ v H', Build (kept leakR) W.heap leakG v H' → ¬Shows H' leakG v := by
  obtain ⟨rd', hd⟩ := leak_decodes
  refine ⟨⟨rd', hd⟩, fun v H' hb => ?_, ⟨[.record [], .record [("n".toList, .atom (.int 5)), ("m".toList, .ref 0)]], [.ref 1]⟩, ?_,
    fun v H' hb => ?_⟩
  · obtain ⟨⟨fp, h, -⟩, -⟩ := decoded_shows_partial (σ := demo true) .none hd hb
    exact ⟨fp, h⟩
  · refine .more (.more .none (.decode hd (leak_builds _))) ?_
    have e : (loadAll leakR.env.defaults []).2 = [.record [("k".toList, .atom (.json (.num 1)))]] :=
      congrArg World.heap leak_started
    rw [e]
    exact .write (a := 0) (o := .record []) ⟨.ref 1, by simp, .part (.here rfl) (o := .record _) rfl (by simp [Obj.parts])⟩
      trivial (by simp [Obj.parts])
  · obtain ⟨rfl, rfl⟩ := leak_build hb
    rintro ⟨fp, h⟩
    simp only [leakG, MadeOf, FieldsMadeOf] at h
    obtain ⟨a, es, fps, h1, h2, ⟨v1, vs1, f1, f2, rfl, -, ⟨v2, vs2, f3, f4, rfl, h3, -⟩, -⟩, -⟩ := h
    cases h1
    simp at h2
    obtain ⟨rfl, rfl, rfl⟩ := h2
    simp [JsonMadeOf, JsonEntriesMadeOf] at h3

/-- Records with an array of these records. -/
def qL : QName := ⟨[], "L".toList⟩
def leakAW : Schema := ⟨leakW.env ++ [(qL, { name := qL, kind := .record [{ name := "l".toList, ty := .array (.ref qR) }] })], .ref qL⟩
def leakAR : Schema := ⟨leakR.env ++ [(qL, { name := qL, kind := .record [{ name := "l".toList, ty := .array (.ref qR) }] })], .ref qL⟩

/-- What is decoded from the bytes 4, 10, 10, 0. -/
def leakAG : GVal := .record [("l".toList, .list [leakG, leakG])]

theorem leakA_decodes : ∃ rd', GDeserializes (demo true) leakAW leakAR [[4, 10, 10, 0]] (.value leakAG rd') := by
  have hs := suited_of (w := leakAW) (r := leakAR) (by decide +kernel)
  have hg : GSuited leakAW leakAR :=
    { toSound := hs.toSound, fields := hs.fields, enums := (counted_of (s := leakAR) (by decide +kernel)).enums }
  obtain ⟨prog, hc⟩ := compiles_of (n := 8) (w := leakAW) (r := leakAR) (by decide +kernel)
  obtain ⟨rd', h, _⟩ := generic_shows (σ := demo true) hg (demo_delivers true) (by decide) hc
    (d := .record [.array [.record [.int 5], .record [.int 5]]]) (e := [4, 10, 10, 0]) (encode_enc (by decide +kernel))
    (within_of (by decide +kernel)) (v := .record [.array [.record [.int 5, .int 7], .record [.int 5, .int 7]]])
    (by with_unfolding_all rfl) rfl (g := leakAG) (by with_unfolding_all rfl) (rd := [[4, 10, 10, 0]]) (rest := []) rfl
  exact ⟨rd', h⟩

/-- C80 fails where a default is a map, within one result: the records of an array share it. -/
theorem default_shared_within : (∃ rd', GDeserializes (demo true) leakAW leakAR [[4, 10, 10, 0]] (.value leakAG rd')) ∧
    ∀ v H', Build (kept leakAR) (started leakAR).heap leakAG v H' →
      Shows H' leakAG v ∧ ∀ fp, MadeOf H' leakAG v fp → ¬fp.Nodup := by
  obtain ⟨rd', hd⟩ := leakA_decodes
  refine ⟨⟨rd', hd⟩, fun v H' hb => ?_⟩
  obtain ⟨⟨fp, h, -⟩, -⟩ := decoded_shows_partial (σ := demo true) .none hd hb
  refine ⟨⟨fp, h⟩, fun fp hm hn => ?_⟩
  have e : kept leakAR = kept leakR := by with_unfolding_all rfl
  have e' : (started leakAR).heap = [.record [("k".toList, .atom (.json (.num 1)))]] := by with_unfolding_all rfl
  rw [e, e'] at hb
  cases hb with
  | record hb => cases hb with
    | cons hb hz =>
      cases hz
      cases hb with
      | list hb => cases hb with
        | cons h1 h2 => cases h2 with
          | cons h3 h4 =>
            cases h4
            obtain ⟨rfl, rfl⟩ := leak_build h1
            obtain ⟨rfl, rfl⟩ := leak_build h3
            have zero : ∀ {H : Heap} {g a fp}, MadeOf H g (.ref a) fp →
                H[a]? = some (.record [("n".toList, .atom (.int 5)), ("m".toList, .ref 0)]) → 0 ∈ fp := by
              intro H g a fp h1 h2
              obtain ⟨o, h3, h4⟩ := h1.sealed.inside a (h1.sealed.roots a (by simp))
              rw [h2] at h3
              cases h3
              exact h4 0 (by simp [Obj.parts])
            simp only [leakAG, MadeOf, ItemsMadeOf, FieldsMadeOf] at hm
            obtain ⟨a, es, fps, h1, h2, ⟨v1, vs1, f1, f2, rfl, ⟨a', vs, f3, rfl, h3, ⟨v3, vs3, f4, f5, rfl, h4, ⟨v5, vs5, f6, f7, rfl, h5,
              ⟨rfl, rfl⟩, rfl⟩, rfl⟩, rfl⟩, ⟨rfl, rfl⟩, rfl⟩, rfl⟩ := hm
            cases h1
            simp at h2
            subst h2
            simp at h3
            obtain ⟨rfl, rfl⟩ := h3
            have z1 := zero h4 (by simp)
            have z2 := zero h5 (by simp)
            simp only [List.append_nil, List.nodup_cons, List.nodup_append] at hn
            exact hn.2.2.2.2 0 z1 0 z2 rfl

end
end Verif.Props
