import Verif.Gen.Val
import Verif.Gen.MapLemmas
/-
Values as far as defaults look at them before they set them.
-/
namespace Verif.Spec
open Verif

mutual
/-- A record has all of its fields, and a map is listed in key order. Where the value has not the form of the type, in
arrays and in unions nothing is asked: what they hold is not looked at. -/
def Whole (env : Env) : Val → Ty → Prop
  | .map m, t => ∀ it, t = .map it → Sorted m ∧ WholeEntries env m it
  | .record vs, t => ∀ q d fs, t = .ref q → env.find q = some d → d.kind = .record fs → WholeFields env vs fs
  | _, _ => True
def WholeEntries (env : Env) : List (List Byte × Val) → Ty → Prop
  | [], _ => True
  | (_, v) :: m, t => Whole env v t ∧ WholeEntries env m t
def WholeFields (env : Env) : List Val → List Field → Prop
  | [], fs => fs = []
  | v :: vs, fs => ∃ f fs', fs = f :: fs' ∧ Whole env v f.ty ∧ WholeFields env vs fs'
end

end Verif.Spec
