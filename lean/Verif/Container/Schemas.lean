import Verif.Props.WellCheck
import Verif.Gen.AnyWriter
/-
The two record types of the container package, v10/container/avro.
-/
namespace Verif.Ocf
open Verif

/-- The bytes of an ASCII string. -/
def ascii (s : String) : List Byte := s.toList.map fun c => BitVec.ofNat 8 c.toNat

def qHeader : QName := ⟨[], "AvroContainerHeader".toList⟩
def qBlock : QName := ⟨[], "AvroContainerBlock".toList⟩
def qMagic : QName := ⟨[], "Magic".toList⟩
def qSync : QName := ⟨[], "Sync".toList⟩
def qSyncB : QName := ⟨[], "sync".toList⟩

def headerFields : List Field :=
  [{ name := "magic".toList, ty := .ref qMagic }, { name := "meta".toList, ty := .map .bytes },
   { name := "sync".toList, ty := .ref qSync }]

/-- `AvroContainerHeader`, v10/container/avro/header.avsc and avro_container_header.go:84-86. -/
def headerSchema : Schema where
  env := [(qMagic, ⟨qMagic, [], .fixed 4⟩), (qSync, ⟨qSync, [], .fixed 16⟩), (qHeader, ⟨qHeader, [], .record headerFields⟩)]
  root := .ref qHeader

def blockFields : List Field :=
  [{ name := "numRecords".toList, ty := .long }, { name := "recordBytes".toList, ty := .bytes },
   { name := "sync".toList, ty := .ref qSyncB }]

/-- `AvroContainerBlock`, v10/container/avro/block.avsc and avro_container_block.go:78-80. -/
def blockSchema : Schema where
  env := [(qSyncB, ⟨qSyncB, [], .fixed 16⟩), (qBlock, ⟨qBlock, [], .record blockFields⟩)]
  root := .ref qBlock

theorem headerSchema_wellFormed : WellFormed headerSchema :=
  Props.wellFormed_of (fun q => if q = qHeader then 1 else 0) (by decide +kernel)

theorem blockSchema_wellFormed : WellFormed blockSchema :=
  Props.wellFormed_of (fun q => if q = qBlock then 1 else 0) (by decide +kernel)

end Verif.Ocf
