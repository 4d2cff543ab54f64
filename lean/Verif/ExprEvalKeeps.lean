import Verif.ExprEvalLemmas
/-!
# What evaluation can do to the memory

Environments and function records that exist before an evaluation are the same afterwards.  Expressions too, except that an
`apply` whose first argument is a name may get a function in its place.
-/

namespace Libo.Expr
open Libo

/-- Every result satisfies `P`. -/
def Post {α : Type} (o : Option α) (P : α → Prop) : Prop := ∀ x, o = some x → P x

theorem Post.bind {α β : Type} {o : Option α} {f : α → Option β} {P : α → Prop} {Q : β → Prop} (h : Post o P)
    (hf : ∀ x, P x → Post (f x) Q) : Post (o.bind f) Q := by
  intro y hy
  obtain ⟨x, h1, h2⟩ := Option.bind_eq_some_iff.mp hy
  exact hf x (h x h1) y h2

theorem Post.map {α β : Type} {o : Option α} {f : α → β} {P : α → Prop} {Q : β → Prop} (h : Post o P)
    (hf : ∀ x, P x → Q (f x)) : Post (o.map f) Q := by
  intro y hy
  obtain ⟨x, h1, rfl⟩ := Option.map_eq_some_iff.mp hy
  exact hf x (h x h1)

theorem Post.ite {α : Type} {c : Prop} [Decidable c] {a b : Option α} {P : α → Prop} (h1 : Post a P) (h2 : Post b P) :
    Post (if c then a else b) P := by
  by_cases h : c
  · rw [if_pos h]; exact h1
  · rw [if_neg h]; exact h2

theorem Post.some {α : Type} {x : α} {P : α → Prop} (h : P x) : Post (some x) P := by
  intro y hy; injection hy with e; exact e ▸ h

theorem Post.none {α : Type} {P : α → Prop} : Post (none : Option α) P := fun _ h => nomatch h

theorem Post.any {α : Type} {o : Option α} : Post o (fun _ => True) := fun _ _ => trivial

/-- An expression after evaluation: the same, or an `apply` with the name in the first argument replaced. -/
def SameNode (a b : Node) : Prop :=
  b.fn = a.fn ∧ (b.args = a.args ∨ a.fn = .apply ∧ ∃ n r rest, a.args = .atom n :: rest ∧ b.args = .func r :: rest)

theorem SameNode.rfl {a : Node} : SameNode a a := ⟨Eq.refl _, .inl (Eq.refl _)⟩

theorem SameNode.trans {a b c : Node} (h1 : SameNode a b) (h2 : SameNode b c) : SameNode a c := by
  obtain ⟨f1, h1⟩ := h1
  obtain ⟨f2, h2⟩ := h2
  refine ⟨f2.trans f1, ?_⟩
  rcases h2 with h2 | ⟨h2, n, r, rest, h3, h4⟩
  · rw [h2]; exact h1
  · rcases h1 with h1 | ⟨_, n', r', rest', h5, h6⟩
    · exact .inr ⟨by rw [← f1, h2], n, r, rest, h1 ▸ h3, h4⟩
    · rw [h6] at h3; injection h3 with e _; cases e

/-- What may happen to the memory. -/
structure Keeps (s t : St) : Prop where
  envs : s.envs <+: t.envs
  recs : s.recs <+: t.recs
  elen : s.exprs.length ≤ t.exprs.length
  exprs : ∀ (i : Nat) (a b : Node), s.exprs[i]? = some a → t.exprs[i]? = some b → SameNode a b

theorem Keeps.rfl {s : St} : Keeps s s :=
  ⟨List.prefix_rfl, List.prefix_rfl, Nat.le_refl _, fun i a b h1 h2 => by
    rw [h1] at h2; injection h2 with e; exact e ▸ SameNode.rfl⟩

theorem Keeps.trans {s t u : St} (h1 : Keeps s t) (h2 : Keeps t u) : Keeps s u := by
  refine ⟨h1.envs.trans h2.envs, h1.recs.trans h2.recs, Nat.le_trans h1.elen h2.elen, fun i a c ha hc => ?_⟩
  have hi := (List.getElem?_eq_some_iff.mp ha).1
  have hb : t.exprs[i]? = some (t.exprs[i]'(Nat.lt_of_lt_of_le hi h1.elen)) := List.getElem?_eq_getElem _
  exact (h1.exprs i _ _ ha hb).trans (h2.exprs i _ _ hb hc)

theorem Keeps.evlen {s t : St} (h : Keeps s t) : s.envs.length ≤ t.envs.length := h.envs.length_le

theorem Keeps.alloc {s t : St} (h : Keeps s t) (n : Node) : Keeps s (t.alloc n).1 := by
  refine h.trans ⟨List.prefix_rfl, List.prefix_rfl, by simp [St.alloc], fun i a b ha hb => ?_⟩
  have hi := (List.getElem?_eq_some_iff.mp ha).1
  simp only [St.alloc] at hb
  rw [List.getElem?_append_left hi, ha] at hb
  injection hb with e; exact e ▸ SameNode.rfl

theorem Keeps.modify {s t : St} (h : Keeps s t) (e : Nat) (g : Node → Node)
    (hg : ∀ a, t.exprs[e]? = some a → e < s.exprs.length → SameNode a (g a)) :
    Keeps s { t with exprs := t.exprs.modify e g } := by
  refine ⟨h.envs, h.recs, by simp; exact h.elen, fun i a b ha hb => ?_⟩
  have hi := (List.getElem?_eq_some_iff.mp ha).1
  simp only [List.getElem?_modify] at hb
  have ht : t.exprs[i]? = some (t.exprs[i]'(Nat.lt_of_lt_of_le hi h.elen)) := List.getElem?_eq_getElem _
  rw [ht] at hb
  simp only [Option.map_eq_map, Option.map_some, Option.some.injEq] at hb
  by_cases e' : e = i
  · subst e'
    rw [if_pos (Eq.refl _)] at hb
    rw [← hb]
    exact (h.exprs _ _ _ ha ht).trans (hg _ ht hi)
  · rw [if_neg e'] at hb
    rw [← hb]
    exact h.exprs _ _ _ ha ht

theorem Keeps.setRest {s t : St} (h : Keeps s t) {e : Nat} (he : s.exprs.length ≤ e) (as : List Arg) :
    Keeps s (t.setRest e as) := h.modify e _ (fun _ _ h' => absurd h' (by omega))

theorem Keeps.bindVar {s t : St} (h : Keeps s t) {i : Nat} (hi : s.envs.length ≤ i) (k : Bytes) (v : Ar) :
    Keeps s (bindVar t i k v) := by
  refine ⟨?_, h.recs, h.elen, h.exprs⟩
  obtain ⟨r, hr⟩ := h.envs
  refine ⟨r.modify (i - s.envs.length) (fun e => (k, v) :: e.filter fun p => p.1 != k), ?_⟩
  show _ = t.envs.modify i _
  rw [← hr]
  apply List.ext_getElem?
  intro j
  rw [List.getElem?_modify]
  by_cases hj : j < s.envs.length
  · rw [List.getElem?_append_left hj, List.getElem?_append_left hj]
    have : i ≠ j := by omega
    simp [this]
  · rw [List.getElem?_append_right (by omega), List.getElem?_append_right (by omega), List.getElem?_modify]
    by_cases e : i = j
    · subst e; simp
    · have : ¬ i - s.envs.length = j - s.envs.length := by omega
      simp only [if_neg e, if_neg this]

theorem newEnv_keeps (st : St) (env : Option Nat) :
    Post (newEnv st env) fun q => Keeps st q.1 ∧ q.2 = st.envs.length ∧ q.1.envs.length = st.envs.length + 1 := by
  unfold newEnv
  exact .map .any fun e _ => ⟨⟨by simp, List.prefix_rfl, Nat.le_refl _, Keeps.rfl.exprs⟩, Eq.refl _, by simp⟩

/-- `E` keeps the memory. -/
def KeepsEv (E : Ev) : Prop := ∀ env st f, Post (E env st f) fun r => Keeps st r.1

theorem evalArg_keeps {E : Ev} (h : KeepsEv E) (env st a) : Post (evalArg E env st a) fun r => Keeps st r.1 := by
  unfold evalArg
  split
  · exact .some .rfl
  · split
    · exact .map .any fun _ _ => .rfl
    · exact .map .any fun _ _ => .rfl
  · exact .map .any fun _ _ => .rfl
  · exact h _ _ _
  · exact .map .any fun _ _ => .rfl
  · exact .some .rfl
  · exact .some .rfl

theorem evalArgs_keeps {E : Ev} (h : KeepsEv E) (env) : ∀ as st, Post (evalArgs E env as st) fun r => Keeps st r.1
  | [], st => .some .rfl
  | a :: as, st => by
    unfold evalArgs
    exact .bind (evalArg_keeps h _ _ _) fun r hr => .ite (.some hr) (.map (evalArgs_keeps h env as _) fun q hq => hr.trans hq)

theorem evalAll_keeps {E : Ev} (h : KeepsEv E) (env) : ∀ as st, Post (evalAll E env as st) fun r => Keeps st r.1
  | [], st => .some .rfl
  | a :: as, st => by
    unfold evalAll
    exact .bind (evalArg_keeps h _ _ _) fun r hr => .ite (.some hr) (.map (evalAll_keeps h env as _) fun q hq => hr.trans hq)

theorem bindArgs_keeps {E : Ev} (h : KeepsEv E) (env le) {s : St} (hle : s.envs.length ≤ le) :
    ∀ ps as st, Keeps s st → Post (bindArgs E env le ps as st) fun r => Keeps s r.1
  | [], [], st, hs => by simp only [bindArgs]; exact .some hs
  | [], _ :: _, st, hs => by simp only [bindArgs]; exact .some hs
  | _ :: _, [], st, hs => by simp only [bindArgs]; exact .some hs
  | p :: ps, a :: as, st, hs => by
    simp only [bindArgs]
    exact .bind (evalArg_keeps h _ _ _) fun r hr => .ite (.some (hs.trans hr))
      (bindArgs_keeps h env le hle ps as _ ((hs.trans hr).bindVar hle _ _))

theorem runBody_keeps {E : Ev} (h : KeepsEv E) (le) : ∀ es st, Post (runBody E le es st) fun r => Keeps st r.1
  | [], st => .some .rfl
  | [e], st => h _ _ _
  | e :: e2 :: es, st => by
    simp only [runBody]
    exact .bind (h _ _ _) fun r hr => .ite (.some hr) fun q hq => hr.trans (runBody_keeps h le (e2 :: es) _ q hq)

theorem applyRec_keeps {E : Ev} (h : KeepsEv E) (env st r rest) :
    Post (applyRec E env st r rest) fun r => Keeps st r.1 := by
  unfold applyRec
  split
  · exact .none
  · exact .bind (newEnv_keeps _ _) fun le hle => .bind (bindArgs_keeps h _ _ (by rw [hle.2.1]; exact Nat.le_refl _) _ _ _ hle.1) fun q hq =>
      .ite (.some hq) fun p hp => hq.trans (runBody_keeps h _ _ _ p hp)

theorem callFn_keeps {E : Ev} (h : KeepsEv E) (env st fn rest) {s : St} (hs : Keeps s st) :
    Post (callFn E env st fn rest) fun r => Keeps s r.1 := by
  intro q hq
  exact (hs.alloc ⟨fn, rest⟩).trans (h _ _ _ q hq)

theorem byName_keeps {E : Ev} (h : KeepsEv E) (T env st a0 rest) :
    Post (applyNode.byName E T env st a0 rest) fun r => Keeps st r.1 := by
  unfold applyNode.byName
  refine .bind (evalArg_keeps h _ _ _) fun q hq => .ite (.some hq) ?_
  split
  · refine .ite (.some hq) ?_
    split
    · exact .none
    · split
      · exact callFn_keeps h _ _ _ _ hq
      · exact .none
  · exact .some hq

theorem applyNode_keeps {E : Ev} (h : KeepsEv E) (T env st f args) (hf : st.exprs[f]? = some ⟨.apply, args⟩) :
    Post (applyNode E T env st f args) fun r => Keeps st r.1 := by
  unfold applyNode
  split
  · exact applyRec_keeps h _ _ _ _
  · refine .ite (.some .rfl) ?_
    split
    · exact .none
    · split
      · exact callFn_keeps h _ _ _ _ .rfl
      · split
        · refine .ite (fun q hq => Keeps.trans ?_ (h _ _ _ q hq)) (.some .rfl)
          refine Keeps.rfl.modify _ _ fun a ha _ => ?_
          rw [hf] at ha
          injection ha with e
          subst e
          exact ⟨Eq.refl _, .inr ⟨Eq.refl _, _, _, _, Eq.refl _, Eq.refl _⟩⟩
        · exact .some .rfl
  · exact byName_keeps h _ _ _ _ _
  · exact byName_keeps h _ _ _ _ _
  · exact .some .rfl

mutual
theorem copyExpr_keeps : ∀ n st e, Post (copyExpr n st e) fun q => Keeps st q.1
  | 0, st, e => by rw [copyExpr]; exact .none
  | n + 1, st, e => by
    rw [copyExpr]
    split
    · exact .none
    · exact .map (copyArgs_keeps n _ _) fun q hq => hq.alloc _
theorem copyArgs_keeps : ∀ n st as, Post (copyArgs n st as) fun q => Keeps st q.1
  | 0, st, as => by rw [copyArgs]; exact .none
  | n + 1, st, [] => by rw [copyArgs]; exact .some .rfl
  | n + 1, st, a :: as => by
    rw [copyArgs]
    exact .bind (copyArg_keeps n _ _) fun q hq => .map (copyArgs_keeps n _ _) fun p hp => hq.trans hp
theorem copyArg_keeps : ∀ n st a, Post (copyArg n st a) fun q => Keeps st q.1
  | 0, st, a => by rw [show copyArg 0 st a = none by rw [copyArg]]; exact .none
  | n + 1, st, .atom none => by rw [copyArg]; exact .some .rfl
  | n + 1, st, .atom (some a) => by rw [copyArg]; exact .map .any fun _ _ => .rfl
  | n + 1, st, .list l => by rw [copyArg]; exact .some .rfl
  | n + 1, st, .expr e => by rw [copyArg]; exact .map (copyExpr_keeps n _ _) fun _ h => h
  | n + 1, st, .addr s => by rw [copyArg]; exact .some .rfl
  | n + 1, st, .func r => by rw [copyArg]; exact .map (copyRec_keeps n _ _) fun _ h => h
  | n + 1, st, .blank => by rw [copyArg]; exact .some .rfl
theorem copyRec_keeps : ∀ n st r, Post (copyRec n st r) fun q => Keeps st q.1
  | 0, st, r => by rw [copyRec]; exact .none
  | n + 1, st, r => by
    rw [copyRec]
    split
    · exact .none
    · exact .map (copyBody_keeps n _ _) fun q hq => hq.trans ⟨List.prefix_rfl, by simp, Nat.le_refl _, Keeps.rfl.exprs⟩
theorem copyBody_keeps : ∀ n st es, Post (copyBody n st es) fun q => Keeps st q.1
  | 0, st, es => by rw [copyBody]; exact .none
  | n + 1, st, [] => by rw [copyBody]; exact .some .rfl
  | n + 1, st, e :: es => by
    rw [copyBody]
    exact .bind (copyExpr_keeps n _ _) fun q hq => .map (copyBody_keeps n _ _) fun p hp => hq.trans hp
end

theorem mapLoop_keeps {E : Ev} (h : KeepsEv E) (env e cols) {s : St} (he : s.exprs.length ≤ e) :
    ∀ is st, Keeps s st → Post (mapLoop E env e cols is st) fun r => Keeps s r.1
  | [], st, hs => .some hs
  | i :: is, st, hs => by
    unfold mapLoop
    exact .bind (h _ _ _) fun r hr => .map (mapLoop_keeps h env e cols he is _ ((hs.setRest he _).trans hr)) fun _ hq => hq

theorem mapNode_keeps {E : Ev} (h : KeepsEv E) (n env st args) : Post (mapNode n E env st args) fun r => Keeps st r.1 := by
  unfold mapNode
  split
  · refine .bind (evalAll_keeps h _ _ _) fun q hq => .ite (.some hq) (.bind (copyArg_keeps _ _ _) fun c hc =>
      .bind (mapLoop_keeps h env _ _ ?_ _ _ ((hq.trans hc).alloc _)) fun p hp => .map .any fun _ _ => hp)
    exact (hq.trans hc).elen
  · exact .some .rfl

theorem reduceLoop_keeps {E : Ev} (h : KeepsEv E) (env e left) {s : St} (he : s.exprs.length ≤ e) :
    ∀ xs st out, Keeps s st → Post (reduceLoop E env e left xs st out) fun r => Keeps s r.1
  | [], st, out, hs => .some hs
  | x :: xs, st, out, hs => by
    unfold reduceLoop
    exact .bind .any fun _ _ => .bind .any fun _ _ => .bind (h _ _ _) fun r hr =>
      reduceLoop_keeps h env e left he xs _ _ ((hs.setRest he _).trans hr)

theorem reduceNode_keeps {E : Ev} (h : KeepsEv E) (n env st left args) :
    Post (reduceNode n E env st left args) fun r => Keeps st r.1 := by
  unfold reduceNode
  split
  · refine .bind (copyArg_keeps _ _ _) fun c hc => .bind (evalArg_keeps h _ _ _) fun q hq' => ?_
    have hq : Keeps st q.1 := (hc.alloc _).trans hq'
    have he : st.exprs.length ≤ c.1.exprs.length := hc.elen
    refine .ite (.some hq) ?_
    simp only
    split
    · exact .map (h _ _ _) fun r hr => hq.trans hr
    · exact .some hq
    · refine .bind (evalArg_keeps h _ _ _) fun p hp' => ?_
      have hp := hq.trans hp'
      refine .ite (.some hp) ?_
      split
      · exact .some hp
      · exact .bind .any fun _ _ => .bind (h _ _ _) fun r hr =>
          .map (reduceLoop_keeps h _ _ _ he _ _ _ ((hp.setRest he _).trans hr)) fun _ ho => ho
    · exact .ite .none (.bind (h _ _ _) fun r hr =>
          .map (reduceLoop_keeps h _ _ _ he _ _ _ ((hq.setRest he _).trans hr)) fun _ ho => ho)
  · exact .some .rfl

theorem target_keeps {E : Ev} (h : KeepsEv E) (env st a0) : Post (target E env st a0) fun r => Keeps st r.1 := by
  unfold target
  split
  · exact .some .rfl
  · refine .bind (P := fun r => Keeps st r.1) ?_ fun q hq => .bind (P := fun r => Keeps st r.1) ?_ fun q hq => .ite (.some hq) ?_
    · split
      · split
        · exact .none
        · split
          · exact evalArg_keeps h _ _ _
          · exact .some .rfl
      · exact .some .rfl
    · exact .ite (fun r hr => hq.trans (evalArg_keeps h _ _ _ r hr)) (.some hq)
    · split
      · exact .some hq
      · exact .ite (.some hq) (.map .any fun _ _ => hq)

/-- Changing the bundle only. -/
theorem Keeps.setBndl {s t : St} (h : Keeps s t) (b) : Keeps s { t with bndl := b } := ⟨h.envs, h.recs, h.elen, h.exprs⟩

theorem assignNode_keeps {E : Ev} (h : KeepsEv E) (env st args) : Post (assignNode E env st args) fun r => Keeps st r.1 := by
  unfold assignNode
  refine .ite (.some .rfl) (.bind (target_keeps h _ _ _) fun q hq => ?_)
  split
  · exact .some hq
  · refine .ite (.some hq) (.bind (evalArg_keeps h _ _ _) fun r hr => .ite (.some (hq.trans hr)) ?_)
    split
    · exact .none
    · exact .map .any fun _ _ => (hq.trans hr).setBndl _

theorem assignToIndexNode_keeps {E : Ev} (h : KeepsEv E) (env st args) :
    Post (assignToIndexNode E env st args) fun r => Keeps st r.1 := by
  unfold assignToIndexNode
  split
  · exact .some .rfl
  · split
    · refine .bind .any fun vs _ => ?_
      split
      · exact .some .rfl
      · refine .bind (evalArg_keeps h _ _ _) fun o ho => .ite (.some ho) (.bind (evalArg_keeps h _ _ _) fun i hi' => ?_)
        have hi := ho.trans hi'
        refine .ite (.some hi) (.bind (evalArg_keeps h _ _ _) fun d hd' => ?_)
        have hd := hi.trans hd'
        refine .ite (.some hd) (.bind .any fun out _ => ?_)
        split
        · exact .some hd
        · refine .ite .none ?_
          split
          · exact .none
          · exact .ite .none (.bind .any fun _ _ => .bind .any fun _ _ => .map .any fun _ _ => hd.setBndl _)
    · exact .none
    · exact .some .rfl

theorem condNode_keeps {E : Ev} (h : KeepsEv E) (env st args) : Post (condNode E env st args) fun r => Keeps st r.1 := by
  unfold condNode
  refine .ite (.some .rfl) (.bind (evalArg_keeps h _ _ _) fun t ht => .ite (.some ht) (.bind .any fun c _ =>
    .bind (P := fun r => Keeps st r.1) ?_ fun r hr => .ite (.some hr) (.map .any fun _ _ => hr)))
  exact .ite (fun r hr => ht.trans (evalArg_keeps h _ _ _ r hr))
    (.ite (.ite .none fun r hr => ht.trans (evalArg_keeps h _ _ _ r hr)) (.some ht))

theorem shortNode_keeps {E : Ev} (h : KeepsEv E) (env st d args) :
    Post (shortNode E env st d args) fun r => Keeps st r.1 := by
  unfold shortNode
  exact .ite (.some .rfl) (.bind (evalArg_keeps h _ _ _) fun l hl => .ite (.some hl) (.ite (.ite (.map .any fun _ _ => hl)
    (.bind (evalArg_keeps h _ _ _) fun r hr => .ite (.some (hl.trans hr)) (.ite (.map .any fun _ _ => hl.trans hr)
      (.some (hl.trans hr))))) (.some hl)))

theorem emptybundleNode_keeps {E : Ev} (h : KeepsEv E) (env st args) :
    Post (emptybundleNode E env st args) fun r => Keeps st r.1 := by
  unfold emptybundleNode
  split
  · exact .some .rfl
  · refine .ite (.map .any fun _ _ => .rfl) (.bind (evalArg_keeps h _ _ _) fun q hq => .ite (.some hq) ?_)
    split
    · refine .ite ?_ (.map .any fun _ _ => hq)
      split
      · exact .map .any fun _ _ => hq
      · exact .none
    · exact .map .any fun _ _ => hq

theorem asked_keeps {E : Ev} (h : KeepsEv E) (env st a) : Post (asked E env st a) fun r => Keeps st r.1 := by
  unfold asked
  split
  · refine .ite (.bind (evalArg_keeps h _ _ _) fun q hq => ?_) (.some .rfl)
    split
    · exact .some hq
    · exact .ite (.map .any fun _ _ => hq) (.some hq)
  · exact .some .rfl
  · refine .bind (h _ _ _) fun q hq => .ite (.some hq) ?_
    split
    · exact .ite (.map .any fun _ _ => hq) (.some hq)
    · exact .some hq
  · exact .some .rfl

theorem existsNode_keeps {E : Ev} (h : KeepsEv E) (env st args test) :
    Post (existsNode E env st args test) fun r => Keeps st r.1 := by
  unfold existsNode
  refine .ite (.some .rfl) (.bind (asked_keeps h _ _ _) fun q hq => ?_)
  split
  · exact .some hq
  · exact .none
  · exact .bind .any fun _ _ => .map .any fun _ _ => hq
  · exact .ite (.map .any fun _ _ => hq) .none

theorem getaddressesNode_keeps {E : Ev} (h : KeepsEv E) (env st args) :
    Post (getaddressesNode E env st args) fun r => Keeps st r.1 := by
  unfold getaddressesNode
  split
  · exact .some .rfl
  · refine .ite ?_ (.bind (evalArg_keeps h _ _ _) fun q hq => ?_)
    · split
      · exact .ite (.some .rfl) .none
      · exact .bind .any fun _ _ => .map .any fun _ _ => .rfl
    · split
      · exact .some hq
      · split
        · refine .ite ?_ (.some hq)
          split
          · exact .map .any fun _ _ => hq
          · exact .none
        · exact .some hq

theorem valueNode_keeps {E : Ev} (h : KeepsEv E) (env st args) :
    Post (valueNode E env st args) fun r => Keeps st r.1 := by
  unfold valueNode
  refine .ite (.some .rfl) (.bind (evalArg_keeps h _ _ _) fun q hq => .ite (.some hq) (.ite (.bind .any fun s _ => ?_) (.some hq)))
  split
  · exact .none
  · exact .ite (.some hq) .none
  · refine .bind .any fun vs _ => ?_
    split
    · exact .some hq
    · exact .bind .any fun n _ => .ite .none (.map .any fun _ _ => hq)

theorem settimetagNode_keeps {E : Ev} (h : KeepsEv E) (env st args) :
    Post (settimetagNode E env st args) fun r => Keeps st r.1 := by
  unfold settimetagNode
  refine .bind (evalArg_keeps h _ _ _) fun q hq => .ite (.some hq) ?_
  split
  · exact .some hq
  · split
    · exact .none
    · exact .some hq
    · exact .map .any fun _ _ => hq.setBndl _

mutual
theorem loadArg_keeps : ∀ (t : Tm) (st : St), Keeps st (t.loadArg st).1
  | .atom _, st => .rfl
  | .addr _, st => .rfl
  | .fn ps body, st => by
    have h := loadAll_keeps body st
    exact ⟨h.envs, h.recs.trans (List.prefix_append _ _), h.elen, h.exprs⟩
  | .app f args, st => (loadArgs_keeps args st).alloc _
  | .null, st => Keeps.rfl.alloc _
  | .broken, st => Keeps.rfl.alloc _
theorem load_keeps : ∀ (t : Tm) (st : St), Keeps st (t.load st).1
  | .app f args, st => (loadArgs_keeps args st).alloc _
  | .atom _, st => Keeps.rfl.alloc _
  | .addr _, st => Keeps.rfl.alloc _
  | .fn _ _, st => Keeps.rfl.alloc _
  | .null, st => Keeps.rfl.alloc _
  | .broken, st => Keeps.rfl.alloc _
theorem loadArgs_keeps : ∀ (ts : List Tm) (st : St), Keeps st (loadArgs ts st).1
  | [], st => .rfl
  | t :: ts, st => (loadArg_keeps t st).trans (loadArgs_keeps ts _)
theorem loadAll_keeps : ∀ (ts : List Tm) (st : St), Keeps st (loadAll ts st).1
  | [], st => .rfl
  | t :: ts, st => (load_keeps t st).trans (loadAll_keeps ts _)
end

theorem evalEach_keeps {E : Ev} (h : KeepsEv E) : ∀ es st, Post (evalEach E es st) fun r => Keeps st r.1
  | [], st => .some .rfl
  | e :: es, st => by
    unfold evalEach
    exact .bind (h _ _ _) fun r hr => .ite (.some hr) fun p hp => hr.trans (evalEach_keeps h es _ p hp)

theorem evalTextNode_keeps {E : Ev} (h : KeepsEv E) (T env st args) : Post (evalTextNode E T env st args) fun r => Keeps st r.1 := by
  unfold evalTextNode
  refine .bind (evalArg_keeps h _ _ _) fun q hq => .ite (.some hq) ?_
  split
  · exact .ite (.some hq) .none
  · exact .bind .any fun s _ => .bind .any fun ts _ => .bind (evalEach_keeps h _ _) fun r hr =>
      .map .any fun _ _ => hq.trans ((loadAll_keeps ts _).trans hr)
  · exact .none

theorem Keeps.ofBndl {s t : St} {b} (h : Keeps { s with bndl := b } t) : Keeps s t := ⟨h.envs, h.recs, h.elen, h.exprs⟩

theorem memberNamed_keeps {E : Ev} (h : KeepsEv E) (env st a b) : Post (memberNamed E env st a b) fun r => Keeps st r.1 := by
  unfold memberNamed
  refine .bind (evalArg_keeps h _ _ _) fun q hq => ?_
  split
  · exact .some hq
  · exact .bind .any fun s _ => .map (evalArg_keeps h _ _ _) fun r hr => (hq.trans (Keeps.ofBndl hr)).setBndl _

theorem getMemberNode_keeps {E : Ev} (h : KeepsEv E) (env st args) : Post (getMemberNode E env st args) fun r => Keeps st r.1 := by
  unfold getMemberNode
  refine .bind (evalArg_keeps h _ _ _) fun q hq => ?_
  have named : ∀ a b, Post (memberNamed E env q.1 a b) fun r => Keeps st r.1 := fun a b p hp => hq.trans (memberNamed_keeps h _ _ _ _ p hp)
  split
  · exact .some hq
  · refine .bind .any fun m _ => ?_
    split
    · exact .some hq
    · exact .some hq
    · split
      · split
        · exact .none
        · split
          · exact named _ _
          · exact named _ _
      · exact named _ _
      · exact .map (evalArg_keeps h _ _ _) fun r hr => (hq.trans (Keeps.ofBndl hr)).setBndl _

theorem memberFirst_keeps {E : Ev} (h : KeepsEv E) (env st args) : Post (memberFirst E env st args) fun r => Keeps st r.1 := by
  unfold memberFirst
  refine .bind (evalArg_keeps h _ _ _) fun q hq => ?_
  split
  · exact .some hq
  · split
    · refine .ite (.some hq) (.bind .any fun m _ => ?_)
      split
      · exact .none
      · exact .bind .any fun _ _ => .map .any fun _ _ => hq.setBndl _
    · exact .some hq

theorem memberStore_keeps {E : Ev} (h : KeepsEv E) (n env st a0 arg1 b) : Post (memberStore n E env st a0 arg1 b) fun r => Keeps st r.1 := by
  unfold memberStore
  split
  · split
    · exact .none
    · split
      · exact .none
      · exact .none
      · exact .ite (.bind .any fun _ _ => .bind .any fun _ _ => assignNode_keeps h _ _ _) (.some .rfl)
  · split
    · exact .none
    · exact .bind .any fun _ _ => .bind (copyArg_keeps _ _ _) fun q hq p hp => hq.trans (assignNode_keeps h _ _ _ p hp)

theorem assignMemberNode_keeps {E : Ev} (h : KeepsEv E) (n env st args) :
    Post (assignMemberNode n E env st args) fun r => Keeps st r.1 := by
  unfold assignMemberNode
  refine .bind (memberFirst_keeps h _ _ _) fun q hq => ?_
  split
  · exact .some hq
  · refine .bind .any fun m _ => ?_
    split
    · exact .some hq
    · exact .some hq
    · split
      · refine .bind (evalArg_keeps h _ _ _) fun v hv => ?_
        split
        · exact .some (hq.trans hv)
        · refine .bind (copyArg_keeps _ _ _) fun c hc => .bind .any fun val _ => .bind (assignNode_keeps h _ _ _) fun r hr => ?_
          have k := ((hq.trans hv).trans hc).trans (Keeps.ofBndl hr)
          refine .ite (.some (k.setBndl _)) ?_
          split
          · exact fun p hp => (k.setBndl _).trans (memberStore_keeps h _ _ _ _ _ _ p hp)
          · exact .none
      · exact .none

theorem evalNode_keeps {E : Ev} (h : KeepsEv E) (n T) : KeepsEv (evalNode n E T) := by
  intro env st f
  unfold evalNode
  split
  · exact .none
  · rename_i fn args hf
    cases fn
    · exact applyNode_keeps h _ _ _ _ _ hf
    · exact mapNode_keeps h _ _ _ _
    · exact reduceNode_keeps h _ _ _ _ _
    · exact reduceNode_keeps h _ _ _ _ _
    · exact assignNode_keeps h _ _ _
    · exact assignToIndexNode_keeps h _ _ _
    · exact condNode_keeps h _ _ _
    · exact emptybundleNode_keeps h _ _ _
    · exact existsNode_keeps h _ _ _ _
    · exact existsNode_keeps h _ _ _ _
    · exact getaddressesNode_keeps h _ _ _
    · show Post (deleteNode st args) _
      unfold deleteNode
      split
      · exact .some .rfl
      · exact .ite (.some .rfl) (.map .any fun _ _ => Keeps.rfl.setBndl _)
    · show Post (getmsgcountNode st) _
      unfold getmsgcountNode
      split
      · exact .some .rfl
      · exact .bind .any fun _ _ => .bind .any fun _ _ => .map .any fun _ _ => .rfl
    · exact valueNode_keeps h _ _ _
    · show Post (quoteNode st args) _
      unfold quoteNode
      split
      · exact .map .any fun _ _ => .rfl
      · exact .some .rfl
      · exact .none
    · show Post (gettimetagNode st) _
      unfold gettimetagNode
      split
      · exact .none
      · exact .bind .any fun _ _ => .map .any fun _ _ => .rfl
    · exact settimetagNode_keeps h _ _ _
    · exact shortNode_keeps h _ _ _ _
    · exact shortNode_keeps h _ _ _ _
    · exact evalTextNode_keeps h _ _ _ _
    · exact getMemberNode_keeps h _ _ _
    · exact assignMemberNode_keeps h _ _ _ _
    · exact .none
    · show Post (callPrim E env st args _) _
      unfold callPrim
      exact .bind (evalArgs_keeps h _ _ _) fun r hr => .ite (.some hr) (.map .any fun _ _ => hr)

/-- Evaluation keeps the memory. -/
theorem run_keeps (T) : ∀ n, KeepsEv (run T n)
  | 0 => fun _ _ _ => .none
  | n + 1 => evalNode_keeps (run_keeps T n) n T

end Libo.Expr
