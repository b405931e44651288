import Verif.Base
/-! # AMF0: src/AMF.cpp, include/rtmfp/AMF.hpp

A cursor is the list of the bytes from it to the limit. Functions that read through a cursor answer `none` if they would read outside of the buffer
(or if a loop were not over after as many rounds as there are bytes), else their answer and where the cursor is then. Numbers are the 64 bits of the
`double`. Values are trees: that the same object can be in several places is left out (encoding doesn't show it; a cycle would never be encoded). -/
namespace Rtmfp
namespace AMF

mutual
/-- include/rtmfp/AMF.hpp:138-360: the classes and their members; `nullptr` is an empty `shared_ptr` in a container -/
inductive Val where
  | nullptr
  | num (bits : UInt64)
  | bool (b : Bool)
  | str (s : Bytes)
  | obj (m : Mem)
  | null
  | undef
  | ecma (m : Mem)
  | arr (l : Vals)
  | typed (name : Bytes) (m : Mem)
/-- `AMF0Map` (AMF.hpp:216, 254): keys and values in the order of the keys -/
inductive Mem where
  | nil
  | cons (key : Bytes) (v : Val) (rest : Mem)
/-- the members of an `AMF0Array` (AMF.hpp:358) -/
inductive Vals where
  | nil
  | cons (v : Val) (rest : Vals)
end

/-- `std::map` contents from a list -/
def Mem.ofList : List (Bytes × Val) → Mem
  | [] => .nil
  | (k, v) :: l => .cons k v (ofList l)

/-- `std::map` contents as a list -/
def Mem.toList : Mem → List (Bytes × Val)
  | .nil => []
  | .cons k v m => (k, v) :: m.toList

/-- array members from a list -/
def Vals.ofList : List Val → Vals
  | [] => .nil
  | v :: l => .cons v (ofList l)

/-- array members as a list -/
def Vals.toList : Vals → List Val
  | .nil => []
  | .cons v l => v :: l.toList

/-- `std::string::operator<` (bytes are compared as unsigned: `std::char_traits<char>::compare`) -/
def keyLt : Bytes → Bytes → Bool
  | _, [] => false
  | [], _ :: _ => true
  | a :: as, b :: bs => decide (a < b) || (a == b && keyLt as bs)

/-- `std::map::operator[]` with assignment -/
def mapPut : List (Bytes × Val) → Bytes → Val → List (Bytes × Val)
  | [], k, v => [(k, v)]
  | (k', v') :: l, k, v => if keyLt k k' then (k, v) :: (k', v') :: l else if keyLt k' k then (k', v') :: mapPut l k v else (k', v) :: l

/-- AMF.cpp:557-563 `putValueAtKey` -/
def putValueAtKey (m : List (Bytes × Val)) (v : Val) (key : Bytes) : List (Bytes × Val) := if key.length < 65536 then mapPut m key v else m

/-- AMF.cpp:565-568 `erase` -/
def erase (m : List (Bytes × Val)) (key : Bytes) : List (Bytes × Val) := m.filter (fun e => e.1 != key)

/-- AMF.cpp:587-593 `getValueAtKey` -/
def getValueAtKey (m : List (Bytes × Val)) (key : Bytes) : Val :=
  match m.find? (fun e => e.1 == key) with
  | some e => e.2
  | none => .undef

/-- two bytes, most significant first (AMF.cpp:533-534, 645-646, 720-721) -/
def be16 (v : Nat) : Bytes := [UInt8.ofNat ((v >>> 8) &&& 0xff), UInt8.ofNat (v &&& 0xff)]

/-- four bytes (AMF.cpp:525-528, 742-745, 889-892) -/
def be32 (v : Nat) : Bytes := [UInt8.ofNat ((v >>> 24) &&& 0xff), UInt8.ofNat ((v >>> 16) &&& 0xff), UInt8.ofNat ((v >>> 8) &&& 0xff), UInt8.ofNat (v &&& 0xff)]

/-- eight bytes (AMF.cpp:408-415) -/
def be64 (v : Nat) : Bytes :=
  [UInt8.ofNat ((v >>> 56) &&& 0xff), UInt8.ofNat ((v >>> 48) &&& 0xff), UInt8.ofNat ((v >>> 40) &&& 0xff), UInt8.ofNat ((v >>> 32) &&& 0xff),
   UInt8.ofNat ((v >>> 24) &&& 0xff), UInt8.ofNat ((v >>> 16) &&& 0xff), UInt8.ofNat ((v >>> 8) &&& 0xff), UInt8.ofNat (v &&& 0xff)]

/-- AMF.cpp:519-538 `AMF0String::encode` -/
def encodeStr (s : Bytes) : Bytes := if s.length > 0xffff then 0x0c :: be32 s.length ++ s else 0x02 :: be16 s.length ++ s

/-- number of members -/
def Mem.size : Mem → Nat
  | .nil => 0
  | .cons _ _ m => m.size + 1

/-- number of elements -/
def Vals.size : Vals → Nat
  | .nil => 0
  | .cons _ l => l.size + 1

mutual
/-- `encode`: AMF.cpp:398-416, 456-460, 519-538, 607-611, 717-724, 737-748, 770-773, 787-790, 885-896; a missing value is encoded as undefined
(AMF.cpp:649-652, 861-866). Simplified: an array of 2^32 elements or more would be encoded forever (the index is 32 bits wide). -/
def Val.encode : Val → Bytes
  | .nullptr => [0x06]
  | .num b => 0x00 :: be64 b.toNat
  | .bool b => [0x01, if b then 1 else 0]
  | .str s => encodeStr s
  | .obj m => 0x03 :: m.encode
  | .null => [0x05]
  | .undef => [0x06]
  | .ecma m => 0x08 :: be32 (min m.size 0xffffffff) ++ m.encode
  | .arr l => 0x0a :: be32 l.size ++ l.encode
  | .typed n m => 0x10 :: be16 n.length ++ n ++ m.encode
/-- AMF.cpp:640-657 `encodeMembers` -/
def Mem.encode : Mem → Bytes
  | .nil => [0, 0, 0x09]
  | .cons k v m => be16 k.length ++ k ++ v.encode ++ m.encode
/-- AMF.cpp:894-895 -/
def Vals.encode : Vals → Bytes
  | .nil => []
  | .cons v l => v.encode ++ l.encode
end

/-- AMF.cpp:351-356 `encode` of several values: missing ones are skipped -/
def encodeAll : List Val → Bytes
  | [] => []
  | .nullptr :: vs => encodeAll vs
  | v :: vs => v.encode ++ encodeAll vs

/-- `*cursor++` -/
def rd : Bytes → Option (UInt8 × Bytes)
  | [] => none
  | b :: c => some (b, c)

/-- `n` bytes from the cursor (`std::string(cursor, n)`, `cursor += n`) -/
def rdN (n : Nat) (c : Bytes) : Option (Bytes × Bytes) := if n ≤ c.length then some (c.take n, c.drop n) else none

/-- `n` bytes as a number: the first, then `x <<= 8; x += *cursor++` (AMF.cpp:429-436, 497-500, 506-507, 665-666, 904-907) -/
def rdNum : (n : Nat) → (acc : Nat) → Bytes → Option (Nat × Bytes)
  | 0, acc, c => some (acc, c)
  | n + 1, acc, c => (rd c).bind (fun r => rdNum n (acc * 256 + r.1.toNat) r.2)

/-- AMF.cpp:488-517 `decodeString`: the string and the cursor -/
def decodeString (isLong : Bool) (c : Bytes) : Option (Option Bytes × Bytes) :=
  if c.length < (if isLong then 4 else 2) then some (none, c)
  else (rdNum (if isLong then 4 else 2) 0 c).bind (fun r =>
    if r.2.length < r.1 then some (none, c)
    else (rdN r.1 r.2).map (fun s => (some s.1, s.2)))

/-- how a member's value is decoded -/
abbrev Dec := Bytes → Option (Option Val × Bytes)

/-- AMF.cpp:659-689 `AMF0Object::setFromEncoding`: the loop, from cursor `c` with members `m` so far; `c0` is where `*cursor_ptr` is meanwhile -/
def objLoop (dec : Dec) (c0 : Bytes) : (fuel : Nat) → Bytes → List (Bytes × Val) → Option (Option (List (Bytes × Val)) × Bytes)
  | 0, _, _ => none
  | fuel + 1, c, m =>
    if c.length < 3 then some (none, c0)
    else (rdNum 2 0 c).bind (fun r =>
      if r.2.length < r.1 then some (none, c0)
      else
        (if r.1 = 0 then (rd r.2).map (fun e => decide (e.1 = 0x09)) else some false).bind (fun isEnd =>
          if isEnd then some (some m, r.2.drop 1)
          else (rdN r.1 r.2).bind (fun key =>
            (dec key.2).bind (fun v =>
              match v.1 with
              | none => some (none, c0)
              | some x => objLoop dec c0 fuel v.2 (putValueAtKey m x key.1)))))

/-- `AMF0Object::setFromEncoding` of a new object -/
def decodeObj (dec : Dec) (c : Bytes) : Option (Option (List (Bytes × Val)) × Bytes) := objLoop dec c (c.length + 1) c []

/-- AMF.cpp:909-915: the loop of `AMF0Array::setFromEncoding`, `n` more elements. (`putValueAtIndex` of the next index appends.) -/
def arrLoop (dec : Dec) (c0 : Bytes) : (n : Nat) → Bytes → List Val → Option (Option (List Val) × Bytes)
  | 0, c, l => some (some l, c)
  | n + 1, c, l => (dec c).bind (fun v =>
      match v.1 with
      | none => some (none, c0)
      | some x => arrLoop dec c0 n v.2 (l ++ [x]))

/-- AMF.cpp:898-919 `AMF0Array::setFromEncoding` of a new array -/
def decodeArr (dec : Dec) (c : Bytes) : Option (Option (List Val) × Bytes) :=
  if c.length < 4 then some (none, c)
  else (rdNum 4 0 c).bind (fun r => arrLoop dec c r.1 r.2 [])

/-- AMF.cpp:271-329: a value of the type, set by its `setFromEncoding` (AMF.cpp:418-442, 462-469, 540-543, 659-689, 726-729, 750-761, 775-778, 792-795,
898-919) from after the marker; `dec` decodes a level deeper -/
def setFrom (dec : Dec) (marker : UInt8) (c : Bytes) : Option (Option Val × Bytes) :=
  match marker.toNat with
  | 0x00 => if c.length < 8 then some (none, c) else (rdNum 8 0 c).map (fun r => (some (.num (UInt64.ofNat r.1)), r.2))
  | 0x01 => if c.length < 1 then some (none, c) else (rd c).map (fun r => (some (.bool (decide (r.1 ≠ 0))), r.2))
  | 0x02 => (decodeString false c).map (fun r => (r.1.map .str, r.2))
  | 0x0c => (decodeString true c).map (fun r => (r.1.map .str, r.2))
  | 0x03 => (decodeObj dec c).map (fun r => (r.1.map (fun m => .obj (.ofList m)), r.2))
  | 0x05 => some (some .null, c)
  | 0x06 => some (some .undef, c)
  | 0x0d => some (some .undef, c)
  | 0x08 => if c.length < 4 then some (none, c) else (decodeObj dec (c.drop 4)).map (fun r => (r.1.map (fun m => .ecma (.ofList m)), r.2))
  | 0x0a => (decodeArr dec c).map (fun r => (r.1.map (fun l => .arr (.ofList l)), r.2))
  | 0x10 => (decodeString false c).bind (fun n =>
      match n.1 with
      | none => some (none, n.2)
      | some name => (decodeObj dec n.2).map (fun r => (r.1.map (fun m => .typed name (.ofList m)), r.2)))
  | _ => some (none, c)

/-- AMF.cpp:263-334 `decode` at depth `MAX_DEPTH + 1 - k`: the value if there is one, and the cursor -/
def decodeD : (k : Nat) → Dec
  | 0, c => some (none, c)
  | k + 1, c =>
    match c with
    | [] => some (none, c)
    | marker :: c1 => (setFrom (decodeD k) marker c1).map (fun r =>
        match r.1 with
        | some v => (some v, r.2)
        | none => (none, c))

/-- AMF.hpp:44 -/
abbrev MAX_DEPTH : Nat := 32

/-- AMF.cpp:258-261 `decode` -/
def decode : Dec := decodeD (MAX_DEPTH + 1)

/-- AMF.cpp:243-256 `decode` of several values: whether all could be, and those that could -/
def decodeAll : (fuel : Nat) → Bytes → List Val → Option (Bool × List Val)
  | 0, _, _ => none
  | fuel + 1, c, dst =>
    if c.isEmpty then some (true, dst)
    else (decode c).bind (fun r =>
      match r.1 with
      | none => some (false, dst)
      | some v => decodeAll fuel r.2 (dst ++ [v]))

/-- AMF.cpp:377-384 `duplicate` -/
def duplicate (v : Val) : Option (Option Val) := (decode v.encode).map (·.1)

end AMF
end Rtmfp
