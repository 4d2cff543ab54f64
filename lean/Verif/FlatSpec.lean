import Verif.ValueSpec
/-!
# Specification: what flattening a bundle means

Independent of the model.  The messages of the flat bundle, in order: for each message of the source first those of its bundles and
then the message itself with its other arguments; addresses are put together on the way down.
-/

namespace Libo

/-- Is this value a bundle? -/
def Val.isBndl : Val → Bool
  | .bndl _ => true
  | _ => false

/-- The address of a message below `pfx`. -/
def below (sep : Bytes) (pfx : Option Bytes) (a : Option Bytes) : Option Bytes :=
  match pfx with
  | none => a
  | some p => a.map (p ++ sep ++ ·)

mutual
/-- The messages a bundle is flattened to.  `open_ level` says whether bundles in messages at this level are opened. -/
def leaves (open_ : Int → Bool) (sep : Bytes) (dropEmpty : Bool) : Int → Option Bytes → List VMsg → List VMsg
  | _, _, [] => []
  | level, pfx, .mk a args :: ms =>
    let rest := if open_ level then args.filter (fun v => !v.isBndl) else args
    (if open_ level then leavesIn open_ sep dropEmpty (level + 1) (below sep pfx a) args else []) ++
      (if dropEmpty = true ∧ rest = [] then [] else [.mk (below sep pfx a) rest]) ++ leaves open_ sep dropEmpty level pfx ms
/-- The messages of the bundles among some arguments. -/
def leavesIn (open_ : Int → Bool) (sep : Bytes) (dropEmpty : Bool) : Int → Option Bytes → List Val → List VMsg
  | _, _, [] => []
  | level, pfx, .bndl ms :: vs => leaves open_ sep dropEmpty level pfx ms ++ leavesIn open_ sep dropEmpty level pfx vs
  | level, pfx, _ :: vs => leavesIn open_ sep dropEmpty level pfx vs
end

def VMsg.addr : VMsg → Option Bytes | .mk a _ => a
def VMsg.args : VMsg → List Val | .mk _ v => v

/-- Of several messages to one address only the last is kept. -/
def lastOfEach : List VMsg → List VMsg
  | [] => []
  | m :: ms => if m.addr ∈ ms.map VMsg.addr then lastOfEach ms else m :: lastOfEach ms

/-- A new message takes the place of those to its address, and comes last. -/
def supersede (ms : List VMsg) (m : VMsg) : List VMsg := ms.filter (fun x => x.addr != m.addr) ++ [m]

theorem mem_lastOfEach_addr {m : Option Bytes} : ∀ ms : List VMsg, m ∈ (lastOfEach ms).map VMsg.addr ↔ m ∈ ms.map VMsg.addr
  | [] => Iff.rfl
  | x :: xs => by
    have ih := mem_lastOfEach_addr (m := m) xs
    simp only [lastOfEach]
    split
    · rename_i h
      rw [ih]; simp only [List.map_cons, List.mem_cons]
      constructor
      · exact Or.inr
      · rintro (rfl | h')
        · exact h
        · exact h'
    · simp only [List.map_cons, List.mem_cons, ih]

theorem lastOfEach_append (m : VMsg) : ∀ ms : List VMsg, lastOfEach (ms ++ [m]) = (lastOfEach ms).filter (fun x => x.addr != m.addr) ++ [m]
  | [] => by simp [lastOfEach]
  | x :: xs => by
    have ih := lastOfEach_append m xs
    simp only [List.cons_append, lastOfEach, List.map_append, List.map_cons, List.map_nil, List.mem_append, List.mem_singleton]
    by_cases h1 : x.addr ∈ xs.map VMsg.addr
    · rw [if_pos (Or.inl h1), if_pos h1, ih]
    · by_cases h2 : x.addr = m.addr
      · rw [if_pos (Or.inr h2), if_neg h1, ih]
        simp [h2]
      · rw [if_neg (by rintro (h | h) <;> contradiction), if_neg h1, ih]
        have : (x.addr != m.addr) = true := by simpa using h2
        simp [this]

/-- Adding messages one after the other to an empty bundle leaves the last one of each address. -/
theorem foldl_supersede : ∀ (ms done : List VMsg), ms.foldl supersede (lastOfEach done) = lastOfEach (done ++ ms)
  | [], done => by simp
  | m :: ms, done => by
    rw [List.foldl_cons, supersede, ← lastOfEach_append, foldl_supersede ms (done ++ [m])]
    simp

/-- The level limit: bundles in messages of the levels 0 to `maxlevel - 1` are opened, or all if it is not positive. -/
def opens (maxlevel level : Int) : Bool := if maxlevel ≤ 0 then true else decide (level < maxlevel)

/-! ### The same without a function: the full address of a value -/

/-- Somewhere in the messages, below any number of bundles, is a message with this full address and these arguments. -/
inductive AtPath (sep : Bytes) : List VMsg → Bytes → List Val → Prop where
  | here {ms a args} : VMsg.mk (some a) args ∈ ms → AtPath sep ms a args
  | inside {ms a args ns b vs} : VMsg.mk (some a) args ∈ ms → Val.bndl ns ∈ args → AtPath sep ns b vs → AtPath sep ms (a ++ sep ++ b) vs

end Libo
