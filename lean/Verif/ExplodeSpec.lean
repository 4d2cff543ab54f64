import Verif.FlatSpec
/-!
# Specification: exploding addresses into nested bundles

Independent of the model.  An address is cut before each slash but the first (and a slash right behind that); each part becomes the
address of a message whose only argument is a bundle.
-/

namespace Libo

/-- The first part of an address. -/
def firstSeg : Bytes → Bytes
  | a :: b :: s => a :: b :: s.takeWhile (· ≠ 47)
  | s => s

/-- The rest of it. -/
def restSeg : Bytes → Bytes
  | _ :: _ :: s => s.dropWhile (· ≠ 47)
  | _ => []

theorem firstSeg_restSeg : ∀ a : Bytes, firstSeg a ++ restSeg a = a
  | [] => rfl
  | [_] => rfl
  | a :: b :: s => by simp [firstSeg, restSeg, List.takeWhile_append_dropWhile]

theorem restSeg_lt : ∀ {a : Bytes}, restSeg a ≠ [] → (restSeg a).length < a.length
  | [], h => by simp [restSeg] at h
  | [_], h => by simp [restSeg] at h
  | a :: b :: s, _ => by
    have : (s.dropWhile (· ≠ 47)).length ≤ s.length := (List.dropWhile_suffix _).length_le
    simp only [restSeg, List.length_cons]
    omega

theorem dropWhile_head {s : Bytes} (h : s.dropWhile (· ≠ 47) ≠ []) : (s.dropWhile (· ≠ 47)).head? = some 47 := by
  induction s with
  | nil => simp at h
  | cons x s ih =>
    simp only [List.dropWhile_cons] at h ⊢
    split
    · rename_i hx
      rw [if_pos hx] at h
      exact ih h
    · rename_i hx
      simp at hx
      simp [hx]

theorem restSeg_head : ∀ {a : Bytes}, restSeg a ≠ [] → (restSeg a).head? = some 47
  | [], h => by simp [restSeg] at h
  | [_], h => by simp [restSeg] at h
  | _ :: _ :: _, h => dropWhile_head h

mutual
/-- No star in any address of the bundles a value is made of. -/
def StarFree : Val → Prop
  | .bndl ms => StarFreeMs ms
  | _ => True
def StarFreeVs : List Val → Prop
  | [] => True
  | v :: vs => StarFree v ∧ StarFreeVs vs
def StarFreeMs : List VMsg → Prop
  | [] => True
  | .mk a vs :: ms => (∀ s, a = some s → (42 : UInt8) ∉ s) ∧ StarFreeVs vs ∧ StarFreeMs ms
end

/-- The messages in the bundle that is the only argument of the (first) message to `a`; none if it is something else. -/
def subOf (ms : List VMsg) (a : Bytes) : List VMsg :=
  match ms.find? fun x => x.addr == some a with
  | some (.mk _ [.bndl ns]) => ns
  | _ => []

/-- Exploding a message into a bundle; `more level` says whether the address is cut at this level. -/
def place (more : Int → Bool) (level : Int) (ms : List VMsg) (a : Bytes) (args : List Val) : List VMsg :=
  if more level = false then ms ++ [.mk (some a) args]
  else if restSeg a = [] then supersede ms (.mk (some a) args)
  else supersede ms (.mk (some (firstSeg a)) [.bndl (place more (level + 1) (subOf ms (firstSeg a)) (restSeg a) args)])
termination_by a.length
decreasing_by exact restSeg_lt (by assumption)

/-- Exploding the messages of a bundle. -/
def placeAll (more : Int → Bool) (ms : List VMsg) (vs : List VMsg) : List VMsg :=
  vs.foldl (fun ms x => place more 0 ms (x.addr.getD []) x.args) ms

/-- The level limit: without one if it is negative. -/
def cuts (maxlevel level : Int) : Bool := if maxlevel < 0 then true else decide (level < maxlevel)

theorem supersede_new {ms : List VMsg} {x : VMsg} (h : ∀ y ∈ ms, y.addr ≠ x.addr) : supersede ms x = ms ++ [x] := by
  rw [supersede, List.filter_eq_self.mpr]
  intro y hy
  simpa using h y hy

end Libo
