import Verif.Spec.Memory
import Verif.Gen.Decode
/-
The targets of generated code as they are in Go: pointers into memory. The same methods as in
Gen/Target.lean; here they change memory, and leaving a target changes nothing.
-/
namespace Verif

/-- A pointer: an object, and the way from it to one of the variables that lie in it. -/
structure Place where
  id : Nat
  path : List Nat

/-- The variable at the end of a path of struct fields and array items. -/
def Var.at : Var → List Nat → Option Var
  | v, [] => some v
  | .struct _ fs, i :: p => match fs[i]? with
    | some v => v.at p
    | none => none
  | _, _ :: _ => none

/-- An assignment to the variable at the end of a path. -/
def Var.put : Var → List Nat → Var → Var
  | _, [], x => x
  | .struct tag fs, i :: p, x => match fs[i]? with
    | some v => .struct tag (fs.set i (v.put p x))
    | none => .struct tag fs
  | v, _ :: _, _ => v

/-- `*p` -/
def Mem.read (h : Mem) (p : Place) : Option Var :=
  match h[p.id]? with
  | some (.var v) => v.at p.path
  | _ => none

/-- `*p = x` -/
def Mem.write (h : Mem) (p : Place) (x : Var) : Mem :=
  match h[p.id]? with
  | some (.var v) => h.set p.id (.var (v.put p.path x))
  | _ => h

/-- `&p.f`, the field (or item) number `i` -/
def Place.field (p : Place) (i : Nat) : Place := ⟨p.id, p.path ++ [i]⟩

/-- A target: the value of an interface `types.Field` in generated code. -/
inductive MTgt where
  /-- a wrapper `{Target: p}` of v10/vm/types/*.go, templates/bytes.go, enum.go, fixed.go -/
  | leaf (l : Leaf) (p : Place)
  /-- `ArrayXWrapper{Target: p}`, templates/array.go:27-29 -/
  | array (item : Ty) (p : Place)
  /-- `&MapXWrapper{Target: p}`, templates/map.go:28-32; `w` is where its fields `keys` and
  `values` are -/
  | map (item : Ty) (p : Place) (w : Nat)
  /-- a pointer to the union struct (templates/union.go:24-29), or `types.Record` around it -/
  | union (ts : List Ty) (p : Place)
  /-- a pointer to the record struct (templates/record.go:17-26), or `types.Record` around it -/
  | record (fs : List Field) (p : Place)
  /-- a reference that is not resolved; does not occur after `ParseSchema` -/
  | bad (p : Place)

/-- Is there something to construct before a variable of this type is decoded into? `ConstructableForField`,
v10/schema/record.go:84-89 and constructable.go:7-17: arrays, maps, unions, records. (A `*types.NullVal`
variable is always nil; it is counted here too, so that it need not be given a value elsewhere.) -/
def Ty.made (env : Env) : Ty → Bool
  | .null => true
  | .array _ => true
  | .map _ => true
  | .union _ => true
  | .ref q => match env.find q with
    | none => true
    | some d => match d.kind with
      | .record _ => true
      | _ => false
  | _ => false

/-- `ConstructorMethod`: `make([]T, 0)` (v10/schema/array.go:55-57), `make(map[string]T)` (map.go:55-57),
`NewX()`, which for a union with a null member allocates (templates/union.go:53-61) and for a record
(templates/record.go:30-43) does not; what it assigns to the fields is not modelled: decoding makes
each of them anew. For other types, `var v T`. -/
def memNew (env : Env) (t : Ty) (h : Mem) : Var × Mem :=
  match t with
  | .null => (.prim .null, h)
  | .array _ => (.slice h.length 0, h ++ [.var (.struct 0 [])])
  | .map _ => (.map h.length, h ++ [.map []])
  | .union ts =>
    if Ty.nullable (.union ts) then
      (.ptr h.length, h ++ [.var (.struct 0 (List.replicate ts.length .junk))])
    else (.struct 0 (List.replicate ts.length .junk), h)
  | .ref q => match env.find q with
    | none => (.junk, h)
    | some d => match d.kind with
      | .record fs => (.struct 0 (List.replicate fs.length .junk), h)
      | _ => (.junk, h)
  | _ => (.junk, h)

/-- The target for the variable at `p`: `WrapperType{Target: p}`, with `keys` and `values` nil in a new
`MapXWrapper`; or, if `WrapperType()` is `""`, what the variable holds: the pointer to a union with a
null member, or the nil `*types.NullVal` (templates/record.go:107-116, array.go:62-66, map.go:72-77,
union.go:128-135). -/
def memTarget (env : Env) (t : Ty) (p : Place) (h : Mem) : Except Err (MTgt × Mem) :=
  match t with
  | .null => .ok (.leaf .null p, h.write p (.prim .null))
  | .bool => .ok (.leaf .bool p, h)
  | .int => .ok (.leaf .int p, h)
  | .long => .ok (.leaf .long p, h)
  | .float => .ok (.leaf .float p, h)
  | .double => .ok (.leaf .double p, h)
  | .bytes => .ok (.leaf .bytes p, h)
  | .string => .ok (.leaf .string p, h)
  | .array t => .ok (.array t p, h)
  | .map t => .ok (.map t p h.length, h ++ [.wrapper none .nil])
  | .union ts =>
    if Ty.nullable (.union ts) then match h.read p with
      | some (.ptr a) => .ok (.union ts ⟨a, []⟩, h)
      | _ => .error .panic
    else .ok (.union ts p, h)
  | .ref q => match env.find q with
    | none => .ok (.bad p, h)
    | some d => match d.kind with
      | .record fs => .ok (.record fs p, h)
      | .enum _ _ => .ok (.leaf .enum p, h)
      | .fixed n => .ok (.leaf (.fixed n.toNat) p, h)

/-- A target and the memory. -/
abbrev MState := MTgt × Mem

/-- The value a variable without parts holds. -/
def Var.old : Var → Option Val
  | .prim x => some x
  | _ => none

/-- An assignment `*b.Target = …` in a wrapper for a type without parts: what it assigns is as in
Gen/Target.lean. -/
def memSetLeaf (set : Tgt → Except Err Tgt) (l : Leaf) (p : Place) (h : Mem) : Except Err MState :=
  match h.read p with
  | none => .error .panic
  | some v => match set (.leaf l v.old) with
    | .error e => .error e
    | .ok (.leaf _ (some x)) => .ok (.leaf l p, h.write p (.prim x))
    | .ok _ => .error .panic

/-- `SetBoolean`, … for types without parts; all others panic. -/
def memSet (set : Tgt → Except Err Tgt) (s : MState) : Except Err MState :=
  match s with
  | (.leaf l p, h) => memSetLeaf set l p h
  | _ => .error .panic

/-- `SetLong`; on a union it assigns to `UnionType`, templates/union.go:113-119. -/
def memSetLong (s : MState) (v : BitVec 64) : Except Err MState :=
  match s with
  | (.leaf l p, h) => memSetLeaf (fun t => genSetLong t v) l p h
  | (.union ts p, h) => match h.read p with
    | some (.struct _ fs) => .ok (.union ts p, h.write p (.struct v fs))
    | _ => .error .panic
  | _ => .error .panic

/-- The variable at `p` is constructed, if there is something to construct, and its target made. -/
def memOpen (env : Env) (t : Ty) (p : Place) (h : Mem) : Except Err MState :=
  if t.made env then match memNew env t h with
    | (v, h1) => memTarget env t p (h1.write p v)
  else memTarget env t p h

/-- `Get`: templates/record.go:100-120, templates/union.go:121-139. -/
def memGet (env : Env) (s : MState) (i : Int) : Except Err MState :=
  match s with
  | (.record fs p, h) =>
    if i < 0 then .error .panic else
    match fs[i.toNat]? with
    | none => .error .panic
    | some f => memOpen env f.ty (p.field i.toNat) h
  | (.union ts p, h) =>
    if i < 0 then .error .panic else
    match ts[i.toNat]? with
    | none => .error .panic
    | some t => memOpen env t (p.field i.toNat) h
  | _ => .error .panic

/-- Leaving a sub-target: the parent's target again, and memory as it is. -/
def memBack (s sub : MState) : MState := (s.1, sub.2)

/-- `append(s, v)`: the slice, a pointer to its last item, and memory. In place if there is room, otherwise
in a new array with some more room, as much as `grow` says. -/
def memAppend (grow : Nat → Nat) (s v : Var) (h : Mem) : Option (Var × Place × Mem) :=
  match s with
  | .nil => some (.slice h.length 1, ⟨h.length, [0]⟩, h ++ [.var (.struct 0 (v :: List.replicate (grow 0) .junk))])
  | .slice a n => match h[a]? with
    | some (.var (.struct _ cs)) =>
      if n < cs.length then some (.slice a (n + 1), ⟨a, [n]⟩, h.set a (.var (.struct 0 (cs.set n v))))
      else some (.slice h.length (n + 1), ⟨h.length, [n]⟩,
        h ++ [.var (.struct 0 (cs.take n ++ v :: List.replicate (grow n) .junk))])
    | _ => none
  | _ => none

/-- `AppendArray`: templates/array.go:56-67. -/
def memAppendArray (env : Env) (grow : Nat → Nat) (s : MState) : Except Err MState :=
  match s with
  | (.array item p, h) => match memNew env item h with
    | (v, h1) => match h1.read p with
      | none => .error .panic
      | some sl => match memAppend grow sl v h1 with
        | none => .error .panic
        | some (sl', _, h2) => match (h2.write p sl').read p with
          | some (.slice b (n + 1)) => memTarget env item ⟨b, [n]⟩ (h2.write p sl')
          | _ => .error .panic
  | _ => .error .panic

/-- `AppendMap`: templates/map.go:66-78. -/
def memAppendMap (env : Env) (grow : Nat → Nat) (s : MState) (k : List Byte) : Except Err MState :=
  match s with
  | (.map item _ w, h) => match h[w]? with
    | some (.wrapper keys vals) => match memNew env item h with
      | (v, h1) => match memAppend grow vals v h1 with
        | none => .error .panic
        | some (vals', q, h2) =>
          memTarget env item q (h2.set w (.wrapper (some (keys.getD [] ++ [k])) vals'))
    | _ => .error .panic
  | _ => .error .panic

/-- `s[len(s)-1] = nil` -/
def memNilLast (s : Var) (h : Mem) : Except Err Mem :=
  match s with
  | .slice a (n + 1) => .ok (h.write ⟨a, [n]⟩ .nil)
  | _ => .error .panic

/-- `NullField`: templates/record.go:135-146, array.go:48-54, map.go:52-58; unions panic, union.go:140. -/
def memNullField (s : MState) (i : Int) : Except Err MState :=
  match s with
  | (.record fs p, h) =>
    if i < 0 then .error .panic else
    match fs[i.toNat]? with
    | none => .error .panic
    | some f =>
      if f.ty.nullable then .ok (.record fs p, h.write (p.field i.toNat) .nil) else .error .panic
  | (.array item p, h) =>
    if item.nullable then match h.read p with
      | none => .error .panic
      | some sl => match memNilLast sl h with
        | .error e => .error e
        | .ok h' => .ok (.array item p, h')
    else .error .panic
  | (.map item p w, h) =>
    if item.nullable then match h[w]? with
      | some (.wrapper _ vals) => match memNilLast vals h with
        | .error e => .error e
        | .ok h' => .ok (.map item p w, h')
      | _ => .error .panic
    else .error .panic
  | _ => .error .panic

/-- `len(v)`, for a slice -/
def Var.len : Var → Option Nat
  | .slice _ n => some n
  | .nil => some 0
  | _ => none

/-- `HintSize`: templates/array.go:43-47, map.go:45-50; others panic. `make` panics for a negative size and
for one above what can be allocated. -/
def memHintSize (lim : Nat) (s : MState) (c : BitVec 64) : Except Err MState :=
  match s with
  | (.array item p, h) => match h.read p with
    | some v => match v.len with
      | none => .error .panic
      | some (n + 1) => .ok (.array item p, h)
      | some 0 =>
        if c.toInt < 0 ∨ (lim : Int) < c.toInt then .error .panic
        else .ok (.array item p,
          Mem.write (h ++ [.var (.struct 0 (List.replicate c.toInt.toNat .junk))]) p (.slice h.length 0))
    | none => .error .panic
  | (.map item p w, h) => match h[w]? with
    | some (.wrapper (some _) _) => .ok (.map item p w, h)
    | some (.wrapper none _) =>
      if c.toInt < 0 ∨ (lim : Int) < c.toInt then .error .panic
      else .ok (.map item p w, List.set (h ++ [.var (.struct 0 (List.replicate c.toInt.toNat .junk))]) w
        (.wrapper (some []) (.slice h.length 0)))
    | _ => .error .panic
  | _ => .error .panic

/-- The items of a slice. -/
def memItems (s : Var) (h : Mem) : Option (List Var) :=
  match s with
  | .nil => some []
  | .slice a n => match h[a]? with
    | some (.var (.struct _ cs)) => some (cs.take n)
    | _ => none
  | _ => none

/-- `Finalize`: templates/map.go:60-64 assigns the entries in order, and panics if there are more keys than
values; elsewhere it does nothing. -/
def memFinalize (s : MState) : Except Err MState :=
  match s with
  | (.map item p w, h) => match h[w]? with
    | some (.wrapper keys vals) =>
      if keys.getD [] = [] then .ok (.map item p w, h) else
      match h.read p with
      | some (.map a) => match h[a]?, memItems vals h with
        | some (.map es), some vs =>
          if (keys.getD []).length ≤ vs.length then
            .ok (.map item p w, h.set a (.map (mapInserts es ((keys.getD []).zip vs))))
          else .error .panic
        | _, _ => .error .panic
      | _ => .error .panic
    | _ => .error .panic
  | s => .ok s

/-- The type of the items. -/
def Ty.item : Ty → Ty
  | .array t => t
  | .map t => t
  | _ => .null

/-- The types of the fields. -/
def Ty.fields (env : Env) : Ty → List Ty
  | .ref q => match env.find q with
    | none => []
    | some d => match d.kind with
      | .record fs => fs.map (·.ty)
      | _ => []
  | _ => []

/-- A member of a union. -/
def Ty.member (i : Nat) : Ty → Ty
  | .union ts => ts.getD i .null
  | _ => .null

/-- How many fields the struct of a union has, for one in which the field `i` is selected. -/
def Ty.width (i : Nat) : Ty → Nat
  | .union ts => max ts.length (i + 1)
  | _ => i + 1

/-- The variable of a union: the struct, or a pointer to it. -/
def memUnion (t : Ty) (s : Var) (h : Mem) : Var × Mem :=
  if t.nullable then (.ptr h.length, h ++ [.var s]) else (s, h)

mutual
/-- What the statements of a default value make (`DefaultValue`, v10/schema/*.go), given the value: new
objects (array.go:59-79, map.go:59-74, union.go:112-125, record.go:105-119). The type says which unions
are pointers and how many fields they have. (The statements for a map put its entries into the map that
the field holds, which the constructor of the record has made during the same call; here that is counted
as made now. What a variable holds that was not made during the call is treated in Gen/Reuse.lean.) -/
def memBuild (env : Env) : Val → Ty → Mem → Var × Mem
  | .array xs, t, h => match memBuildAll env xs (List.replicate xs.length t.item) h with
    | (vs, h1) => (.slice h1.length xs.length, h1 ++ [.var (.struct 0 vs)])
  | .map es, t, h => match memBuildEntries env es t.item h with
    | (ms, h1) => (.map h1.length, h1 ++ [.map ms])
  | .record xs, t, h => match memBuildAll env xs (t.fields env) h with
    | (vs, h1) => (.struct 0 vs, h1)
  | .union tag x, t, h => match memBuildMember env x (t.member tag.toNat) h with
    | (v, h1) => memUnion t (.struct tag ((List.replicate (t.width tag.toNat) .junk).set tag.toNat v)) h1
  | .nil, _, h => (.nil, h)
  | x, _, h => (.prim x, h)
/-- The items or fields, one after the other. -/
def memBuildAll (env : Env) : List Val → List Ty → Mem → List Var × Mem
  | [], _, h => ([], h)
  | x :: xs, ts, h => match memBuild env x (ts.headD .null) h with
    | (v, h1) => match memBuildAll env xs ts.tail h1 with
      | (vs, h2) => (v :: vs, h2)
/-- The entries, one after the other. -/
def memBuildEntries (env : Env) : List (List Byte × Val) → Ty → Mem → List (List Byte × Var) × Mem
  | [], _, h => ([], h)
  | (k, x) :: es, t, h => match memBuild env x t h with
    | (v, h1) => match memBuildEntries env es t h1 with
      | (ms, h2) => ((k, v) :: ms, h2)
/-- The field that is selected. -/
def memBuildMember (env : Env) : Option Val → Ty → Mem → Var × Mem
  | none, _, h => (.junk, h)
  | some x, t, h => memBuild env x t h
end

/-- `SetDefault`: templates/record.go:122-133. -/
def memSetDefault (env : Env) (dv : Field → Val) (s : MState) (i : Int) : Except Err MState :=
  match s with
  | (.record fs p, h) =>
    if i < 0 then .error .panic else
    match fs[i.toNat]? with
    | none => .error .panic
    | some f =>
      if f.dflt.isNone then .error .panic
      else match memBuild env (dv f) f.ty h with
        | (v, h1) => .ok (.record fs p, h1.write (p.field i.toNat) v)
  | _ => .error .panic

/-- The targets of generated code in memory. Besides the arguments of `genOps`: how much more room
`append` makes. -/
def memOps (re : Env) (lim : Nat) (dv : Field → Val) (grow : Nat → Nat) : FieldOps MState where
  setBoolean s v := memSet (fun t => genSetBoolean t v) s
  setInt s v := memSet (fun t => genSetInt t v) s
  setLong := memSetLong
  setFloat s v := memSet (fun t => genSetFloat t v) s
  setDouble s v := memSet (fun t => genSetDouble t v) s
  setBytes s v := memSet (fun t => genSetBytes t v) s
  setString s v := memSet (fun t => genSetString t v) s
  get := memGet re
  put s _ sub := memBack s sub
  setDefault := memSetDefault re dv
  appendMap := memAppendMap re grow
  putMap s _ sub := memBack s sub
  appendArray := memAppendArray re grow
  putArray := memBack
  nullField := memNullField
  hintSize := memHintSize lim
  finalize := memFinalize

/-- `DeserializeX` and `DeserializeXFromSchema` (templates/record.go:45-66, union.go:67-101) in memory `h`: the
variable `t` is a new object. The result is what `t` holds when `vm.Eval` has returned a nil error, what is left
of the input, and memory. -/
def DeserializesIn {R : Type} (σ : Setting R) (grow : Nat → Nat) (w r : Schema) (rd : R) (h : Mem)
    (v : Var) (rd' : R) (h' : Mem) : Prop :=
  ∃ prog v0 h0 s s', compile σ.ord false w r = .ok prog ∧ memNew r.env r.root h = (v0, h0) ∧
    memTarget r.env r.root ⟨h0.length, []⟩ (h0 ++ [.var v0]) = .ok s ∧
    Evaluates σ.ro (memOps r.env σ.lim σ.dv grow) prog rd s (.ok (rd', s')) ∧
    s'.2.read ⟨h0.length, []⟩ = some v ∧ h' = s'.2
end Verif
