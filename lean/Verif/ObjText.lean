import Verif.Print
/-
`String()` and `Description()` of instance domains and singleton metrics.
-/
namespace Speed
namespace ObjText

open Dump

/-- `%v` of a slice of strings (fmt/print.go, `printValue`): the elements with a space between them. -/
def joinSp : List Str → Str
  | [] => []
  | [x] => x
  | x :: y :: l => x ++ 0x20 :: joinSp (y :: l)

/-- `PCPInstanceDomain.String` (instance_domain.go:122-124), when the range over the map in `Instances`
(instance_domain.go:93-100) gives the names in this order. -/
def indomText (d : Indom) (order : List Str) : Str := d.name ++ b!"[" ++ joinSp order ++ b!"]"

/-- The texts that `String` of the domain can return: the order of a map is arbitrary. -/
def IndomStr (d : Indom) (s : Str) : Prop := ∃ order, order.Perm (d.insts.map (·.name)) ∧ s = indomText d order

/-- `pcpMetricDesc.Description` (metrics.go:533-535). -/
def descText (d : Desc) : Str := d.short ++ b!"\n" ++ d.long

/-- `PCPInstanceDomain.Description` (instance_domain.go:118-120). -/
def indomDesc (d : Indom) : Str := d.short ++ b!"\n" ++ d.long

/-- `PCPSingletonMetric.String` (metrics.go:645-647) with the value `v`. -/
def singleText (P : FloatFmt) (d : Desc) (v : GoVal) : Str := b!"Val: " ++ fmtVal P v ++ b!"\n" ++ descText d

end ObjText
end Speed
