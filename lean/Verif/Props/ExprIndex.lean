import Verif.ExprIndex
/-!
# C106: the index of functions and the list of compiled functions
-/

namespace Libo.Props
open Libo EDoc

/-- Operators with the words that stand for them in addresses. -/
def operatorWords : List (Bytes × Bytes) :=
  [(n! "+", n! "add"), (n! "-", n! "sub"), (n! "*", n! "mul"), (n! "/", n! "div"), (n! "%", n! "mod"), (n! "++", n! "inc"), (n! "--", n! "dec"),
    (n! "+=", n! "addassign"), (n! "-=", n! "subassign"), (n! "*=", n! "mulassign"), (n! "/=", n! "divassign"), (n! "%=", n! "modassign")]

/-- `w` is how `name` is written in an address. -/
def WrittenAs (name w : Bytes) : Prop := (name, w) ∈ operatorWords ∨ (name ∉ operatorWords.map (·.1) ∧ w = name)

/-- `a` is the address of the function `name` in the category `cat`. -/
def IndexAddr (name cat a : Bytes) : Prop := ∃ w, WrittenAs name w ∧ a = n! "/doc/category" ++ cat ++ n! "/" ++ w

/-- Two lists of one length with members that match one by one. -/
inductive Matched {α β : Type} (R : α → β → Prop) : List α → List β → Prop where
  | nil : Matched R [] []
  | cons {a b as bs} (h : R a b) (t : Matched R as bs) : Matched R (a :: as) (b :: bs)

theorem written_if {s k w x : Bytes} (hk : (k, w) ∈ operatorWords) (h : s ≠ k → WrittenAs s x) : WrittenAs s (if s = k then w else x) := by
  by_cases e : s = k
  · subst e; rw [if_pos rfl]; exact .inl hk
  · rw [if_neg e]; exact h e

theorem indexName_written (s : Bytes) : WrittenAs s (indexName s) := by
  unfold indexName
  iterate 12 refine written_if (by decide) fun _ => ?_
  right; refine ⟨?_, rfl⟩
  simp only [operatorWords, List.map_cons, List.map_nil, List.mem_cons, List.not_mem_nil, or_false, not_or]
  refine ⟨?_, ?_, ?_, ?_, ?_, ?_, ?_, ?_, ?_, ?_, ?_, ?_⟩ <;> assumption

theorem written_unique {s w w' : Bytes} (h : WrittenAs s w) (h' : WrittenAs s w') : w = w' := by
  have key : ∀ p ∈ operatorWords, ∀ q ∈ operatorWords, p.1 = q.1 → p.2 = q.2 := by decide
  rcases h with h | h <;> rcases h' with h' | h'
  · exact key _ h _ h' rfl
  · exact absurd (List.mem_map_of_mem (f := (·.1)) h) h'.1
  · exact absurd (List.mem_map_of_mem (f := (·.1)) h') h.1
  · rw [h.2, h'.2]

theorem indexCats_ok (name : Bytes) (cs : List Bytes) (h : ∀ c ∈ cs, c.length + (indexName name).length ≤ 113) :
    indexCats name cs = some (cs.map fun c => (n! "/doc/category" ++ c ++ n! "/" ++ indexName name, [DVal.str name])) := by
  induction cs with
  | nil => rfl
  | cons c cs ih =>
    have hc := h c (by simp)
    rw [indexCats, ih fun c' h' => h c' (by simp [h']), indexMsg]
    rw [if_pos (by simp; omega)]
    rfl

theorem functionIndex_ok (fs : List (Bytes × List Bytes)) (h : ∀ f ∈ fs, ∀ c ∈ f.2, c.length + (indexName f.1).length ≤ 113) :
    functionIndex fs = some (fs.flatMap fun f => f.2.map fun c => (n! "/doc/category" ++ c ++ n! "/" ++ indexName f.1, [DVal.str f.1])) := by
  induction fs with
  | nil => rfl
  | cons f fs ih =>
    rw [functionIndex, indexCats_ok f.1 f.2 (h f (by simp)), ih fun g hg => h g (by simp [hg])]
    rfl

/-- The index has, one behind the other, a message for each function and each of its categories, with the address made of both and the name of the
function as its value, if the addresses fit into the buffer. -/
theorem C106_index_partial (fs : List (Bytes × List Bytes)) (h : ∀ f ∈ fs, ∀ c ∈ f.2, ∀ w, WrittenAs f.1 w → c.length + w.length ≤ 113) :
    ∃ ms, functionIndex fs = some ms ∧
      Matched (fun (m : DMsg) (p : Bytes × Bytes) => IndexAddr p.1 p.2 m.1 ∧ m.2 = [DVal.str p.1]) ms (fs.flatMap fun f => f.2.map fun c => (f.1, c)) := by
  refine ⟨_, functionIndex_ok fs fun f hf c hc => h f hf c hc _ (indexName_written _), ?_⟩
  clear h
  induction fs with
  | nil => exact .nil
  | cons f fs ih =>
    simp only [List.flatMap_cons]
    generalize f.2 = cs
    induction cs with
    | nil => exact ih
    | cons c cs ih' => exact .cons ⟨⟨_, indexName_written _, rfl⟩, rfl⟩ ih'

/-- One address that is too long makes it all undefined. -/
theorem C106_index_full_fails (fs : List (Bytes × List Bytes)) (f : Bytes × List Bytes) (hf : f ∈ fs) (c : Bytes) (hc : c ∈ f.2) (w : Bytes)
    (hw : WrittenAs f.1 w) (hl : 114 ≤ c.length + w.length) : functionIndex fs = none := by
  obtain rfl := written_unique hw (indexName_written f.1)
  have h1 : ∀ cs : List Bytes, c ∈ cs → indexCats f.1 cs = none := by
    intro cs
    induction cs with
    | nil => simp
    | cons d cs ih =>
      intro hm
      rcases List.mem_cons.mp hm with e | hm
      · subst e
        rw [indexCats, indexMsg, if_neg (by simp; omega)]; rfl
      · rw [indexCats, ih hm]; cases indexMsg f.1 d <;> rfl
  induction fs with
  | nil => simp at hf
  | cons g fs ih =>
    rcases List.mem_cons.mp hf with e | hm
    · subst e; rw [functionIndex, h1 _ hc]; rfl
    · rw [functionIndex, ih hm]; cases indexCats g.1 g.2 <;> rfl

theorem last_slash {a b v w : Bytes} (hv : 47 ∉ v) (hw : 47 ∉ w) (h : a ++ 47 :: v = b ++ 47 :: w) : a = b ∧ v = w := by
  rcases List.append_eq_append_iff.mp h with ⟨x, h1, h2⟩ | ⟨x, h1, h2⟩
  · cases x with
    | nil => simp at h1 h2; exact ⟨h1.symm, h2⟩
    | cons y x => simp at h2; exact absurd (by rw [h2.2]; simp) hv
  · cases x with
    | nil => simp at h1 h2; exact ⟨h1, h2.symm⟩
    | cons y x => simp at h2; exact absurd (by rw [h2.2]; simp) hw

theorem word_no_slash {s w : Bytes} (h : WrittenAs s w) (hs : 47 ∈ s → s ∈ operatorWords.map (·.1)) : 47 ∉ w := by
  have key : ∀ p ∈ operatorWords, 47 ∉ p.2 := by decide
  rcases h with h | ⟨h, rfl⟩
  · exact key _ h
  · exact fun h' => h (hs h')

/-- An address of the index leads back to the function and the category, unless a function is named like the word for an operator. -/
theorem C106_addresses_partial {s t c d a : Bytes} (hs : 47 ∈ s → s ∈ operatorWords.map (·.1)) (ht : 47 ∈ t → t ∈ operatorWords.map (·.1))
    (hs' : s ∉ operatorWords.map (·.2)) (ht' : t ∉ operatorWords.map (·.2)) (h : IndexAddr s c a) (h' : IndexAddr t d a) : s = t ∧ c = d := by
  obtain ⟨v, hv, rfl⟩ := h
  obtain ⟨w, hw, e⟩ := h'
  have e' : (n! "/doc/category" ++ c) ++ 47 :: v = (n! "/doc/category" ++ d) ++ 47 :: w := by simpa using e
  obtain ⟨e1, e2⟩ := last_slash (word_no_slash hv hs) (word_no_slash hw ht) e'
  subst e2
  refine ⟨?_, List.append_cancel_left e1⟩
  have key : ∀ p ∈ operatorWords, ∀ q ∈ operatorWords, p.2 = q.2 → p.1 = q.1 := by decide
  rcases hv with hv | hv <;> rcases hw with hw | hw
  · exact key _ hv _ hw rfl
  · exact absurd (hw.2 ▸ List.mem_map_of_mem (f := (·.2)) hv) ht'
  · exact absurd (hv.2 ▸ List.mem_map_of_mem (f := (·.2)) hw) hs'
  · rw [← hv.2, ← hw.2]

/-- `+` and `add` in one category have one address. -/
theorem C106_addresses_full_fails (c : Bytes) : ∃ a, IndexAddr (n! "+") c a ∧ IndexAddr (n! "add") c a :=
  ⟨_, ⟨n! "add", .inl (by decide), rfl⟩, ⟨n! "add", .inr ⟨by decide, rfl⟩, rfl⟩⟩

/-- The list of categories: one message without values for each, in order. -/
theorem C106_categories_partial (cs : List Bytes) (h : ∀ c ∈ cs, c.length ≤ 109) :
    categoryIndex cs = some (cs.map fun c => (n! "/doc/category/list" ++ c, [])) := by
  induction cs with
  | nil => rfl
  | cons c cs ih =>
    have hc := h c (by simp)
    rw [categoryIndex, ih fun c' h' => h c' (by simp [h'])]
    rw [if_pos (by simp; omega)]
    rfl

/-- A category that is too long makes it all undefined. -/
theorem C106_categories_full_fails (cs : List Bytes) (c : Bytes) (hc : c ∈ cs) (hl : 110 ≤ c.length) : categoryIndex cs = none := by
  induction cs with
  | nil => simp at hc
  | cons d cs ih =>
    rcases List.mem_cons.mp hc with e | hm
    · subst e; rw [categoryIndex]; rw [if_neg (by simp; omega)]
    · rw [categoryIndex, ih hm]; split <;> rfl

/-- The line about one compiled function. -/
def boundLine (e : Bytes × Bytes) : Bytes := n! "address " ++ e.1 ++ (n! " is bound to compil" ++ n! "ed function object ") ++ e.2 ++ [10]

theorem tableStep_eq (n : Nat) (t : Bytes) (e : Bytes × Bytes) :
    tableStep (some (n, t)) e = if t.length + (boundLine e).length + 1 ≤ (if (n : Int) - t.length < 64 then n + 256 else n) then
      some (if (n : Int) - t.length < 64 then n + 256 else n, t ++ boundLine e) else none := rfl

theorem tableStep_fold (es : List (Bytes × Bytes)) (h : ∀ e ∈ es, (boundLine e).length ≤ 63) (n : Nat) (t : Bytes) (ht : t.length < n) :
    ∃ m, es.foldl tableStep (some (n, t)) = some (m, t ++ es.flatMap boundLine) := by
  induction es generalizing n t with
  | nil => exact ⟨n, by simp⟩
  | cons e es ih =>
    have he := h e (by simp)
    have hs : ∃ m, tableStep (some (n, t)) e = some (m, t ++ boundLine e) ∧ (t ++ boundLine e).length < m := by
      refine ⟨if (n : Int) - t.length < 64 then n + 256 else n, ?_, ?_⟩
      · rw [tableStep_eq, if_pos (by split <;> omega)]
      · rw [List.length_append]; split <;> omega
    obtain ⟨m, hm, hl⟩ := hs
    rw [List.foldl_cons, hm]
    obtain ⟨k, hk⟩ := ih (fun e' h' => h e' (by simp [h'])) m _ hl
    exact ⟨k, by rw [hk]; simp⟩

/-- The list of compiled functions has a line for each of them, in order, for any number of them, if the lines are short. -/
theorem C106_table_partial (es : List (Bytes × Bytes)) (h : ∀ e ∈ es, (boundLine e).length ≤ 63) :
    formatTable es = some (es.flatMap boundLine) := by
  obtain ⟨m, hm⟩ := tableStep_fold es h 256 [] (by decide)
  rw [formatTable, hm]; simp

/-- Any line of 64 bytes is too long: with four of them the text is written behind the end of the buffer. -/
theorem C106_table_full_fails (e : Bytes × Bytes) (h : (boundLine e).length = 64) : formatTable [e, e, e, e] = none := by
  have step : ∀ n (t : Bytes), t.length + 65 ≤ n → tableStep (some (n, t)) e = some (n, t ++ boundLine e) := by
    intro n t hn
    have hn' : ¬ (n : Int) - t.length < 64 := by omega
    rw [tableStep_eq, if_neg hn', if_pos (by omega)]
  rw [formatTable, List.foldl_cons, List.foldl_cons, List.foldl_cons, List.foldl_cons, step _ _ (by decide), step _ _ (by simp [h]),
    step _ _ (by simp [h])]
  rw [tableStep_eq, if_neg]
  · rfl
  · simp [h]

/-! ## Concrete cases -/

/-- Two functions as in the table of libo. -/
def indexDemo : List (Bytes × List Bytes) :=
  [(n! "+", [n! "/math/operator/arithmetic", n! "/string/operator"]), (n! "add", [n! "/math/arithmetic", n! "/string/function"])]

example : ∀ f ∈ indexDemo, ∀ c ∈ f.2, ∀ w, WrittenAs f.1 w → c.length + w.length ≤ 113 := by
  intro f hf c hc w hw
  obtain rfl := written_unique hw (indexName_written f.1)
  clear hw; revert c; revert f; decide

example : (functionIndex indexDemo).map (·.map (·.2)) = some [[.str (n! "+")], [.str (n! "+")], [.str (n! "add")], [.str (n! "add")]] := by decide

example : (boundLine (n! "/f", n! "0x55d0c0ffee00")).length = 63 ∧ (boundLine (n! "/ab", n! "0x55d0c0ffee00")).length = 64 := by decide

end Libo.Props
