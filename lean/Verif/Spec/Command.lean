import Verif.Gen.Command
/-
What a run of gogen-avro is to produce.
-/
namespace Verif

/-- The documents, read and decoded. -/
def Documents (out : Outside) : List Str → List Json → Prop
  | [], js => js = []
  | f :: fs, js => ∃ text j js', out.read f = some text ∧ out.json text = some j ∧ js = j :: js' ∧ Documents out fs js'

/-- The file `f` with the contents `t` belongs to the output of the command: the documents are accepted
together, the package has a file of that name, and `t` is the formatted text the template makes of
what that file is for, after the header and the package clause. -/
def Output (out : Outside) (fl : Flags) (args : List Str) (f t : Str) : Prop :=
  ∃ nm docs js n b src, namerOf fl.names = some nm ∧ globAll out.glob args.tail = some docs ∧ Documents out docs js ∧
    parseCommand fl.short js = .ok n ∧ (generate nm fl.containers n).lookup f = some b ∧
    out.template nm n b = some src ∧
    out.gofmt (codegenComment fl.sources docs ++ "\npackage ".toList ++ fl.pkg ++ "\n".toList ++ src) = some t

/-- The parts of a path between slashes. -/
def components : Str → List Str
  | [] => [[]]
  | c :: cs => if c = '/' then [] :: components cs else match components cs with
    | p :: ps => (c :: p) :: ps
    | [] => [[c]]

end Verif
