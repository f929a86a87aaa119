import Verif.Model.Inf
import Verif.Spec.Table
/-!
# Specification vocabulary: name tables and row operations
-/
namespace Uip.Spec
open Uip

/-- The normalised form of a value of the given field: its entry in the field's table, or itself. -/
def normValue (tables : GoMap (GoMap Str)) (field : Option Str) (v : Str) : Str :=
  match field.bind (mapGet tables) with
  | none => v
  | some t => match mapGet t v with
    | some v' => v'
    | none => v

/-- The row with every value normalised. -/
def normRow (tables : GoMap (GoMap Str)) (fields : List Str) (x : IpRaw) : IpRaw :=
  ⟨x.cidr, x.values.mapIdx fun i v => normValue tables fields[i]? v⟩

/-- Normalised names are not normalised further. -/
def NoChains (tables : GoMap (GoMap Str)) : Prop :=
  ∀ f t, mapGet tables f = some t → ∀ k v, mapGet t k = some v → mapGet t v = none ∨ mapGet t v = some v

/-- Value of the named field in a row. -/
def fieldVal (fields : List Str) (f : Str) (x : IpRaw) : Option Str := (Offset f fields).bind (x.values[·]?)

/-- The row with the value of the named field replaced. -/
def setField (fields : List Str) (f v : Str) (x : IpRaw) : IpRaw :=
  match Offset f fields with
  | some i => ⟨x.cidr, x.values.set i v⟩
  | none => x

/-- The row with the value of the named field replaced, or appended when the field is new. -/
def setOrAdd (fields : List Str) (f v : Str) (x : IpRaw) : IpRaw :=
  match Offset f fields with
  | some i => ⟨x.cidr, x.values.set i v⟩
  | none => ⟨x.cidr, x.values ++ [v]⟩

/-- The field list with the field added when it is new. -/
def addField (fields : List Str) (f : Str) : List Str := if f ∈ fields then fields else fields ++ [f]

/-- The record an address gets from a table of rows scanned from the top. -/
def firstMatch (rows : List IpRaw) (x : Nat) : Option (List Str) :=
  (rows.find? fun r => decide (Covers r.cidr x)).map (·.values)

/-- The record an address gets from a table of rows scanned from the bottom. -/
def lastMatch (rows : List IpRaw) (x : Nat) : Option (List Str) := firstMatch rows.reverse x

/-- The carrier a line name stands for: its part before the first `/`, where 铁通 counts as 移动 and every other
name that is not one of the three carriers as 电信. -/
def carrierLine (line : Str) : Str :=
  let name := line.takeWhile (· ≠ 0x2F)
  if name = [] then []
  else if name = gs "电信" ∨ name = gs "联通" ∨ name = gs "移动" then name
  else if name = gs "铁通" then gs "移动"
  else gs "电信"

/-- No two rows of the data set share a backing array. -/
def Unshared {α : Type} (arr : α → Nat) (rows : List α) : Prop := rows.Pairwise fun a b => arr a ≠ arr b

/-- The four main carriers. -/
def mainCarriers : List Str := [gs "电信", gs "联通", gs "移动", gs "铁通"]

/-- The regions of China and their provinces. -/
def regions : List (Str × List Str) :=
  [(gs "东北", [gs "黑龙江", gs "辽宁", gs "吉林"]),
   (gs "西北", [gs "新疆", gs "青海", gs "宁夏", gs "甘肃", gs "陕西"]),
   (gs "华北", [gs "内蒙古", gs "河北", gs "山西", gs "天津", gs "北京"]),
   (gs "西南", [gs "西藏", gs "四川", gs "重庆", gs "贵州", gs "云南"]),
   (gs "华中", [gs "湖南", gs "湖北", gs "河南"]),
   (gs "华东", [gs "山东", gs "江苏", gs "安徽", gs "浙江", gs "江西", gs "福建", gs "上海", gs "台湾"]),
   (gs "华南", [gs "广东", gs "广西", gs "海南", gs "香港", gs "澳门"])]

/-- The region a province lies in; empty for a name that is no province. -/
def districtOf (p : Str) : Str := ((regions.find? fun r => decide (p ∈ r.2)).map (·.1)).getD []

/-- The country whose rows get a line. -/
def chinaName : Str := gs "中国"

end Uip.Spec
