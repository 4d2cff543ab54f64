import Verif.DecodeVal
/-!
# Specification vocabulary for the expression language: integer values and truth
-/

namespace Libo

/-- The integer `n` as a value of an integer type. -/
def ITy.val (t : ITy) (n : Int) : Val := .num t.tag (n % (2 ^ t.width : Nat)).toNat

/-- What counts as true: the value true, and every number that is not zero (floating point numbers have two zeros, which
differ in the top bit only). -/
def Val.truth : Val → Bool
  | .num tag v => if tag = 102 then v % 2 ^ 31 != 0 else if tag = 100 then v % 2 ^ 63 != 0 else v != 0
  | .bare tag => tag == 84
  | _ => false

instance (t : ITy) (n : Int) : Decidable (t.has n) := by unfold ITy.has; infer_instance

namespace Props

/-- The pairs an operator is applied to: a list of one element is combined with every element of the other list, and
otherwise the lists are combined element by element up to the end of the shorter one. -/
def broadcast {α β : Type} (xs : List α) (ys : List β) : List (α × β) :=
  match xs, ys with
  | [x], ys => ys.map fun y => (x, y)
  | xs, [y] => xs.map fun x => (x, y)
  | xs, ys => xs.zip ys

/-- The wider of two integer types; of equally wide ones the unsigned. -/
def wider (t1 t2 : ITy) : ITy :=
  if t1.width < t2.width ∨ (t1.width = t2.width ∧ t2.signed = false) then t2 else t1

end Props

end Libo
