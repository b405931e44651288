import Verif.Model.AMF
/-! # What is said about AMF0 values -/
namespace Rtmfp
namespace AMF

mutual
/-- values that can exist, within the limits of the encoding: strings below 4 GiB, keys and class names below 64 KiB, arrays below 2^32 elements; each key
once, in order -/
def Val.Ok : Val → Prop
  | .str s => s.length < 2 ^ 32
  | .obj m => m.Ok
  | .ecma m => m.Ok
  | .arr l => l.size < 2 ^ 32 ∧ l.Ok
  | .typed n m => n.length < 2 ^ 16 ∧ m.Ok
  | .nullptr => True
  | .num _ => True
  | .bool _ => True
  | .null => True
  | .undef => True
/-- members of an object -/
def Mem.Ok : Mem → Prop
  | .nil => True
  | .cons k v m => k.length < 2 ^ 16 ∧ (∀ e ∈ m.toList, keyLt k e.1 = true) ∧ v.Ok ∧ m.Ok
/-- elements of an array -/
def Vals.Ok : Vals → Prop
  | .nil => True
  | .cons v l => v.Ok ∧ l.Ok
end

mutual
/-- how deep values are nested: 0 if there is none in it -/
def Val.nest : Val → Nat
  | .obj m => m.nest
  | .ecma m => m.nest
  | .arr l => l.nest
  | .typed _ m => m.nest
  | .nullptr => 0
  | .num _ => 0
  | .bool _ => 0
  | .str _ => 0
  | .null => 0
  | .undef => 0
/-- of members: one deeper than the deepest -/
def Mem.nest : Mem → Nat
  | .nil => 0
  | .cons _ v m => max (v.nest + 1) m.nest
/-- of elements -/
def Vals.nest : Vals → Nat
  | .nil => 0
  | .cons v l => max (v.nest + 1) l.nest
end

mutual
/-- the same value with undefined in place of missing members -/
def Val.norm : Val → Val
  | .obj m => .obj m.norm
  | .ecma m => .ecma m.norm
  | .arr l => .arr l.norm
  | .typed n m => .typed n m.norm
  | .nullptr => .undef
  | .num b => .num b
  | .bool b => .bool b
  | .str s => .str s
  | .null => .null
  | .undef => .undef
/-- members -/
def Mem.norm : Mem → Mem
  | .nil => .nil
  | .cons k v m => .cons k v.norm m.norm
/-- elements -/
def Vals.norm : Vals → Vals
  | .nil => .nil
  | .cons v l => .cons v.norm l.norm
end

mutual
/-- how many values there are in a value, itself included -/
def Val.nodes : Val → Nat
  | .obj m => 1 + m.nodes
  | .ecma m => 1 + m.nodes
  | .arr l => 1 + l.nodes
  | .typed _ m => 1 + m.nodes
  | .nullptr => 1
  | .num _ => 1
  | .bool _ => 1
  | .str _ => 1
  | .null => 1
  | .undef => 1
/-- in members -/
def Mem.nodes : Mem → Nat
  | .nil => 0
  | .cons _ v m => v.nodes + m.nodes
/-- in elements -/
def Vals.nodes : Vals → Nat
  | .nil => 0
  | .cons v l => v.nodes + l.nodes
end

end AMF
end Rtmfp
