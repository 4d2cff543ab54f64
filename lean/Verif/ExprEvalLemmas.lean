import Verif.ExprEval
import Verif.Decode
/-!
# Lemmas about the evaluator: the number of nested calls allowed does not change a result; what evaluation can do to the memory
-/

namespace Libo.Expr
open Libo

theorem _root_.Libo.Le.obind {α β : Type} {a b : Option α} {f g : α → Option β} (h : Le a b) (hf : ∀ x, Le (f x) (g x)) :
    Le (a.bind f) (b.bind g) := Le.bind h hf

theorem _root_.Libo.Le.omap {α β : Type} {a b : Option α} {f : α → β} (h : Le a b) : Le (a.map f) (b.map f) := by
  intro y hy
  rw [Option.map_eq_some_iff] at hy ⊢
  obtain ⟨x, h1, h2⟩ := hy
  exact ⟨x, h x h1, h2⟩

theorem _root_.Libo.Le.none {α : Type} {a : Option α} : Le none a := fun _ h => nomatch h

/-- `E'` gives every result that `E` gives. -/
def LeEv (E E' : Ev) : Prop := ∀ env st f, Le (E env st f) (E' env st f)

theorem evalArg_mono {E E' : Ev} (h : LeEv E E') (env st a) : Le (evalArg E env st a) (evalArg E' env st a) := by
  unfold evalArg
  split <;> first | exact Le.rfl | exact h _ _ _

theorem evalArgs_mono {E E' : Ev} (h : LeEv E E') (env) : ∀ as st, Le (evalArgs E env as st) (evalArgs E' env as st)
  | [], st => Le.rfl
  | a :: as, st => by
    unfold evalArgs
    exact .obind (evalArg_mono h _ _ _) fun r => .ite .rfl (.omap (evalArgs_mono h env as _))

theorem evalAll_mono {E E' : Ev} (h : LeEv E E') (env) : ∀ as st, Le (evalAll E env as st) (evalAll E' env as st)
  | [], st => Le.rfl
  | a :: as, st => by
    unfold evalAll
    exact .obind (evalArg_mono h _ _ _) fun r => .ite .rfl (.omap (evalAll_mono h env as _))

theorem bindArgs_mono {E E' : Ev} (h : LeEv E E') (env le) :
    ∀ ps as st, Le (bindArgs E env le ps as st) (bindArgs E' env le ps as st)
  | [], [], st => by simp only [bindArgs]; exact Le.rfl
  | [], _ :: _, st => by simp only [bindArgs]; exact Le.rfl
  | _ :: _, [], st => by simp only [bindArgs]; exact Le.rfl
  | p :: ps, a :: as, st => by
    simp only [bindArgs]
    exact .obind (evalArg_mono h _ _ _) fun r => .ite .rfl (bindArgs_mono h env le ps as _)

theorem runBody_mono {E E' : Ev} (h : LeEv E E') (le) : ∀ es st, Le (runBody E le es st) (runBody E' le es st)
  | [], st => Le.rfl
  | [e], st => h _ _ _
  | e :: e2 :: es, st => by
    simp only [runBody]
    exact .obind (h _ _ _) fun r => .ite .rfl (runBody_mono h le (e2 :: es) _)

theorem applyRec_mono {E E' : Ev} (h : LeEv E E') (env st r rest) :
    Le (applyRec E env st r rest) (applyRec E' env st r rest) := by
  unfold applyRec
  split
  · exact Le.rfl
  · exact .obind .rfl fun le => .obind (bindArgs_mono h _ _ _ _ _) fun q => .ite .rfl (runBody_mono h _ _ _)

theorem byName_mono {E E' : Ev} (h : LeEv E E') (T env st a0 rest) :
    Le (applyNode.byName E T env st a0 rest) (applyNode.byName E' T env st a0 rest) := by
  unfold applyNode.byName
  refine .obind (evalArg_mono h _ _ _) fun q => .ite .rfl ?_
  split
  · refine .ite .rfl ?_
    split
    · exact Le.rfl
    · split
      · exact h _ _ _
      · exact Le.rfl
  · exact Le.rfl

theorem applyNode_mono {E E' : Ev} (h : LeEv E E') (T env st f args) :
    Le (applyNode E T env st f args) (applyNode E' T env st f args) := by
  unfold applyNode
  split
  · exact applyRec_mono h _ _ _ _
  · refine .ite .rfl ?_
    split
    · exact Le.rfl
    · split
      · exact h _ _ _
      · split
        · exact .ite (h _ _ _) .rfl
        · exact Le.rfl
  · exact byName_mono h _ _ _ _ _
  · exact byName_mono h _ _ _ _ _
  · exact Le.rfl

mutual
theorem copyExpr_mono : ∀ n st e, Le (copyExpr n st e) (copyExpr (n + 1) st e)
  | 0, st, e => by simp only [copyExpr]; exact Le.none
  | n + 1, st, e => by
    rw [copyExpr, copyExpr]
    split
    · exact Le.rfl
    · exact .omap (copyArgs_mono n _ _)
theorem copyArgs_mono : ∀ n st as, Le (copyArgs n st as) (copyArgs (n + 1) st as)
  | 0, st, as => by simp only [copyArgs]; exact Le.none
  | n + 1, st, [] => by simp only [copyArgs]; exact Le.rfl
  | n + 1, st, a :: as => by
    rw [copyArgs, copyArgs]
    exact .obind (copyArg_mono n _ _) fun q => .omap (copyArgs_mono n _ _)
theorem copyArg_mono : ∀ n st a, Le (copyArg n st a) (copyArg (n + 1) st a)
  | 0, st, a => by rw [show copyArg 0 st a = none by rw [copyArg]]; exact Le.none
  | n + 1, st, .atom none => by simp only [copyArg]; exact Le.rfl
  | n + 1, st, .atom (some a) => by simp only [copyArg]; exact Le.rfl
  | n + 1, st, .list l => by simp only [copyArg]; exact Le.rfl
  | n + 1, st, .expr e => by rw [copyArg, copyArg]; exact .omap (copyExpr_mono n _ _)
  | n + 1, st, .addr s => by simp only [copyArg]; exact Le.rfl
  | n + 1, st, .func r => by rw [copyArg, copyArg]; exact .omap (copyRec_mono n _ _)
  | n + 1, st, .blank => by simp only [copyArg]; exact Le.rfl
theorem copyRec_mono : ∀ n st r, Le (copyRec n st r) (copyRec (n + 1) st r)
  | 0, st, r => by simp only [copyRec]; exact Le.none
  | n + 1, st, r => by
    rw [copyRec, copyRec]
    split
    · exact Le.rfl
    · exact .omap (copyBody_mono n _ _)
theorem copyBody_mono : ∀ n st es, Le (copyBody n st es) (copyBody (n + 1) st es)
  | 0, st, es => by simp only [copyBody]; exact Le.none
  | n + 1, st, [] => by simp only [copyBody]; exact Le.rfl
  | n + 1, st, e :: es => by
    rw [copyBody, copyBody]
    exact .obind (copyExpr_mono n _ _) fun q => .omap (copyBody_mono n _ _)
end

theorem mapLoop_mono {E E' : Ev} (h : LeEv E E') (env e cols) :
    ∀ is st, Le (mapLoop E env e cols is st) (mapLoop E' env e cols is st)
  | [], st => Le.rfl
  | i :: is, st => by
    unfold mapLoop
    exact .obind (h _ _ _) fun r => .omap (mapLoop_mono h env e cols is _)

theorem mapNode_mono {E E' : Ev} (h : LeEv E E') (n env st args) :
    Le (mapNode n E env st args) (mapNode (n + 1) E' env st args) := by
  unfold mapNode
  split
  · exact .obind (evalAll_mono h _ _ _) fun q => .ite .rfl (.obind (copyArg_mono _ _ _) fun c =>
      .obind (mapLoop_mono h _ _ _ _ _) fun p => .rfl)
  · exact Le.rfl

theorem reduceLoop_mono {E E' : Ev} (h : LeEv E E') (env e left) :
    ∀ xs st out, Le (reduceLoop E env e left xs st out) (reduceLoop E' env e left xs st out)
  | [], st, out => Le.rfl
  | x :: xs, st, out => by
    unfold reduceLoop
    exact .obind .rfl fun _ => .obind .rfl fun _ => .obind (h _ _ _) fun r => reduceLoop_mono h env e left xs _ _

theorem reduceNode_mono {E E' : Ev} (h : LeEv E E') (n env st left args) :
    Le (reduceNode n E env st left args) (reduceNode (n + 1) E' env st left args) := by
  unfold reduceNode
  split
  · refine .obind (copyArg_mono _ _ _) fun c => .obind (evalArg_mono h _ _ _) fun q => .ite .rfl ?_
    simp only
    split
    · exact .omap (h _ _ _)
    · exact Le.rfl
    · refine .obind (evalArg_mono h _ _ _) fun p => .ite .rfl ?_
      split
      · exact Le.rfl
      · exact .obind .rfl fun _ => .obind (h _ _ _) fun r => .omap (reduceLoop_mono h _ _ _ _ _ _)
    · exact .ite .rfl (.obind (h _ _ _) fun r => .omap (reduceLoop_mono h _ _ _ _ _ _))
  · exact Le.rfl

theorem target_mono {E E' : Ev} (h : LeEv E E') (env st a0) : Le (target E env st a0) (target E' env st a0) := by
  unfold target
  split
  · exact Le.rfl
  · refine .obind ?_ fun q => .obind ?_ fun q => .rfl
    · split
      · split
        · exact Le.rfl
        · split
          · exact evalArg_mono h _ _ _
          · exact Le.rfl
      · exact Le.rfl
    · exact .ite (evalArg_mono h _ _ _) .rfl

theorem assignNode_mono {E E' : Ev} (h : LeEv E E') (env st args) :
    Le (assignNode E env st args) (assignNode E' env st args) := by
  unfold assignNode
  refine .ite .rfl (.obind (target_mono h _ _ _) fun q => ?_)
  split
  · exact Le.rfl
  · exact .ite .rfl (.obind (evalArg_mono h _ _ _) fun r => .rfl)

theorem assignToIndexNode_mono {E E' : Ev} (h : LeEv E E') (env st args) :
    Le (assignToIndexNode E env st args) (assignToIndexNode E' env st args) := by
  unfold assignToIndexNode
  split
  · exact Le.rfl
  · split
    · refine .obind .rfl fun vs => ?_
      split
      · exact Le.rfl
      · exact .obind (evalArg_mono h _ _ _) fun o => .ite .rfl (.obind (evalArg_mono h _ _ _) fun i =>
          .ite .rfl (.obind (evalArg_mono h _ _ _) fun d => .rfl))
    · exact Le.rfl
    · exact Le.rfl

theorem condNode_mono {E E' : Ev} (h : LeEv E E') (env st args) :
    Le (condNode E env st args) (condNode E' env st args) := by
  unfold condNode
  exact .ite .rfl (.obind (evalArg_mono h _ _ _) fun t => .ite .rfl (.obind .rfl fun c =>
    .obind (.ite (evalArg_mono h _ _ _) (.ite (.ite .rfl (evalArg_mono h _ _ _)) .rfl)) fun r => .rfl))

theorem shortNode_mono {E E' : Ev} (h : LeEv E E') (env st d args) :
    Le (shortNode E env st d args) (shortNode E' env st d args) := by
  unfold shortNode
  exact .ite .rfl (.obind (evalArg_mono h _ _ _) fun l => .ite .rfl (.ite (.ite .rfl
    (.obind (evalArg_mono h _ _ _) fun r => .rfl)) .rfl))

theorem emptybundleNode_mono {E E' : Ev} (h : LeEv E E') (env st args) :
    Le (emptybundleNode E env st args) (emptybundleNode E' env st args) := by
  unfold emptybundleNode
  split
  · exact Le.rfl
  · exact .ite .rfl (.obind (evalArg_mono h _ _ _) fun q => .rfl)

theorem asked_mono {E E' : Ev} (h : LeEv E E') (env st a) : Le (asked E env st a) (asked E' env st a) := by
  unfold asked
  split
  · exact .ite (.obind (evalArg_mono h _ _ _) fun q => .rfl) .rfl
  · exact Le.rfl
  · exact .obind (h _ _ _) fun q => .rfl
  · exact Le.rfl

theorem existsNode_mono {E E' : Ev} (h : LeEv E E') (env st args test) :
    Le (existsNode E env st args test) (existsNode E' env st args test) := by
  unfold existsNode
  exact .ite .rfl (.obind (asked_mono h _ _ _) fun q => .rfl)

theorem getaddressesNode_mono {E E' : Ev} (h : LeEv E E') (env st args) :
    Le (getaddressesNode E env st args) (getaddressesNode E' env st args) := by
  unfold getaddressesNode
  split
  · exact Le.rfl
  · exact .ite .rfl (.obind (evalArg_mono h _ _ _) fun q => .rfl)

theorem valueNode_mono {E E' : Ev} (h : LeEv E E') (env st args) :
    Le (valueNode E env st args) (valueNode E' env st args) := by
  unfold valueNode
  exact .ite .rfl (.obind (evalArg_mono h _ _ _) fun q => .rfl)

theorem settimetagNode_mono {E E' : Ev} (h : LeEv E E') (env st args) :
    Le (settimetagNode E env st args) (settimetagNode E' env st args) := by
  unfold settimetagNode
  exact .obind (evalArg_mono h _ _ _) fun q => .rfl

theorem evalEach_mono {E E' : Ev} (h : LeEv E E') : ∀ es st, Le (evalEach E es st) (evalEach E' es st)
  | [], st => Le.rfl
  | e :: es, st => by
    unfold evalEach
    exact .obind (h _ _ _) fun r => .ite .rfl (evalEach_mono h es _)

theorem evalTextNode_mono {E E' : Ev} (h : LeEv E E') (T env st args) :
    Le (evalTextNode E T env st args) (evalTextNode E' T env st args) := by
  unfold evalTextNode
  refine .obind (evalArg_mono h _ _ _) fun q => .ite .rfl ?_
  split
  · exact Le.rfl
  · exact .obind .rfl fun s => .obind .rfl fun ts => .obind (evalEach_mono h _ _) fun r => .rfl
  · exact Le.rfl

theorem memberNamed_mono {E E' : Ev} (h : LeEv E E') (env st a b) : Le (memberNamed E env st a b) (memberNamed E' env st a b) := by
  unfold memberNamed
  refine .obind (evalArg_mono h _ _ _) fun q => ?_
  split
  · exact Le.rfl
  · exact .obind .rfl fun s => .omap (evalArg_mono h _ _ _)

theorem getMemberNode_mono {E E' : Ev} (h : LeEv E E') (env st args) :
    Le (getMemberNode E env st args) (getMemberNode E' env st args) := by
  unfold getMemberNode
  refine .obind (evalArg_mono h _ _ _) fun q => ?_
  split
  · exact Le.rfl
  · refine .obind .rfl fun m => ?_
    split
    · exact Le.rfl
    · exact Le.rfl
    · split
      · split
        · exact Le.rfl
        · split
          · exact memberNamed_mono h _ _ _ _
          · exact memberNamed_mono h _ _ _ _
      · exact memberNamed_mono h _ _ _ _
      · exact .omap (evalArg_mono h _ _ _)

theorem memberFirst_mono {E E' : Ev} (h : LeEv E E') (env st args) : Le (memberFirst E env st args) (memberFirst E' env st args) := by
  unfold memberFirst
  exact .obind (evalArg_mono h _ _ _) fun q => .rfl

theorem memberStore_mono {E E' : Ev} (h : LeEv E E') (n env st a0 arg1 b) :
    Le (memberStore n E env st a0 arg1 b) (memberStore (n + 1) E' env st a0 arg1 b) := by
  unfold memberStore
  split
  · split
    · exact Le.rfl
    · split
      · exact Le.rfl
      · exact Le.rfl
      · exact .ite (.obind .rfl fun s => .obind .rfl fun a => assignNode_mono h _ _ _) .rfl
  · split
    · exact Le.rfl
    · exact .obind .rfl fun x => .obind (copyArg_mono n _ _) fun q => assignNode_mono h _ _ _

theorem assignMemberNode_mono {E E' : Ev} (h : LeEv E E') (n env st args) :
    Le (assignMemberNode n E env st args) (assignMemberNode (n + 1) E' env st args) := by
  unfold assignMemberNode
  refine .obind (memberFirst_mono h _ _ _) fun q => ?_
  split
  · exact Le.rfl
  · refine .obind .rfl fun m => ?_
    split
    · exact Le.rfl
    · exact Le.rfl
    · split
      · refine .obind (evalArg_mono h _ _ _) fun v => ?_
        split
        · exact Le.rfl
        · refine .obind (copyArg_mono n _ _) fun c => .obind .rfl fun val => .obind (assignNode_mono h _ _ _) fun r => .ite .rfl ?_
          split
          · exact memberStore_mono h _ _ _ _ _ _
          · exact Le.rfl
      · exact Le.rfl

theorem evalNode_mono {E E' : Ev} (h : LeEv E E') (n T) : LeEv (evalNode n E T) (evalNode (n + 1) E' T) := by
  intro env st f
  unfold evalNode
  split
  · exact Le.rfl
  · rename_i fn args _
    cases fn
    · exact applyNode_mono h _ _ _ _ _
    · exact mapNode_mono h _ _ _ _
    · exact reduceNode_mono h _ _ _ _ _
    · exact reduceNode_mono h _ _ _ _ _
    · exact assignNode_mono h _ _ _
    · exact assignToIndexNode_mono h _ _ _
    · exact condNode_mono h _ _ _
    · exact emptybundleNode_mono h _ _ _
    · exact existsNode_mono h _ _ _ _
    · exact existsNode_mono h _ _ _ _
    · exact getaddressesNode_mono h _ _ _
    · exact Le.rfl
    · exact Le.rfl
    · exact valueNode_mono h _ _ _
    · exact Le.rfl
    · exact Le.rfl
    · exact settimetagNode_mono h _ _ _
    · exact shortNode_mono h _ _ _ _
    · exact shortNode_mono h _ _ _ _
    · exact evalTextNode_mono h _ _ _ _
    · exact getMemberNode_mono h _ _ _
    · exact assignMemberNode_mono h _ _ _ _
    · exact Le.rfl
    · unfold callPrim
      exact .obind (evalArgs_mono h _ _ _) fun r => .rfl

/-- More nested calls do not change a result. -/
theorem run_succ (T) : ∀ n, LeEv (run T n) (run T (n + 1))
  | 0 => fun _ _ _ => Le.none
  | n + 1 => evalNode_mono (run_succ T n) n T

theorem run_mono (T) {n m : Nat} (h : n ≤ m) : LeEv (run T n) (run T m) := by
  induction h with
  | refl => exact fun _ _ _ => Le.rfl
  | step _ ih => exact fun env st f r hr => run_succ T _ env st f r (ih env st f r hr)

end Libo.Expr
