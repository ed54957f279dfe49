import Verif.Wire.Reader
/-
Instructions and programs: v10/vm/op.go, v10/vm/instructions.go, v10/vm/program.go.
-/
namespace Verif

/-- `vm.Op`, v10/vm/op.go:4-75. -/
inductive Op where
  | read | set | enter | exit | setExitNull | appendArray | appendMap | setDefault
  | call | ret | halt | jump | evalEqual | evalGreater | condJump
  | setLong | addLong | multLong | setInt | pushLoop | popLoop | nullField | hintSize
  deriving DecidableEq, Repr

/-- `vm.Instruction`, v10/vm/instructions.go:27-30: an operation and an `int` operand. -/
structure Instr where
  op : Op
  arg : Int
  deriving DecidableEq, Repr

/-- `vm.Program`, v10/vm/program.go: instructions and error messages. -/
structure Program where
  instrs : List Instr
  errors : List Msg

/-- `Unused`, v10/vm/instructions.go:13. -/
def opUnused : Int := 0
/-- `Null`, v10/vm/instructions.go:14. -/
def opNull : Int := 1
/-- `Boolean`, v10/vm/instructions.go:15. -/
def opBoolean : Int := 2
/-- `Int`, v10/vm/instructions.go:16. -/
def opInt : Int := 3
/-- `Long`, v10/vm/instructions.go:17. -/
def opLong : Int := 4
/-- `Float`, v10/vm/instructions.go:18. -/
def opFloat : Int := 5
/-- `Double`, v10/vm/instructions.go:19. -/
def opDouble : Int := 6
/-- `Bytes`, v10/vm/instructions.go:20. -/
def opBytes : Int := 7
/-- `String`, v10/vm/instructions.go:21. -/
def opString : Int := 8
/-- `UnusedLong`, v10/vm/instructions.go:23. -/
def opUnusedLong : Int := 10
/-- `NoopField`, v10/vm/instructions.go:8. -/
def noopField : Int := 65535

end Verif
