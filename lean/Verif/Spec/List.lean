import Verif.Base

/-! # Specification: a sequence of named values -/

namespace Rtmfp.Spec

/-- A sequence of (name, value). -/
abbrev Seq (α : Type) := List (Int × α)

namespace Seq
variable {α : Type}

/-- Put `e` right after the element called `n` (0: at the front). -/
def insAfter (n : Int) (e : Int × α) (q : Seq α) : Seq α :=
  if n = 0 then e :: q else q.flatMap (fun x => if x.1 = n then [x, e] else [x])

/-- Put `e` right before the element called `n` (0: at the end). -/
def insBefore (n : Int) (e : Int × α) (q : Seq α) : Seq α :=
  if n = 0 then q ++ [e] else q.flatMap (fun x => if x.1 = n then [e, x] else [x])

/-- Change the value of the element called `n`. -/
def set (n : Int) (v : α) (q : Seq α) : Seq α := q.map (fun x => if x.1 = n then (n, v) else x)

/-- Delete the element called `n`. -/
def del (n : Int) (q : Seq α) : Seq α := q.filter (fun x => x.1 ≠ n)

/-- The element called `n` (if any) alone. -/
def only (n : Int) (q : Seq α) : Seq α := q.filter (fun x => x.1 = n)

/-- What is before the first element called `n`. -/
def before (n : Int) (q : Seq α) : Seq α := q.takeWhile (fun x => x.1 ≠ n)

/-- The first element called `n` and what follows. -/
def upto (n : Int) (q : Seq α) : Seq α := q.dropWhile (fun x => x.1 ≠ n)

/-- The names in order. -/
def names (q : Seq α) : List Int := q.map (·.1)

end Seq
end Rtmfp.Spec
