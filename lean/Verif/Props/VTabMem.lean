import Verif.VTabMem
import Verif.Props.Hashtab
import Verif.BasicLemmas
/-!
# C95: handlers can be called, rebound and renamed by name
-/

namespace Libo.Props
open Libo Libo.VT

/-- The slot of a key. -/
def keySlot (t : Tab) (k : Bytes) : Nat := ((HT.hash k.length k).getD 0) % t.chains.length

/-- An element of the chain in slot `s` is a pointer to an entry, under a key that reads as the selector of the entry.  The key
is the entry's own copy of the selector, or a string of the caller, and then it is in the right slot. -/
def ElemOk (h : Heap) (t : Tab) (l : List (Bytes × Nat × Nat)) (s : Nat) (x : Nat × EPtr) : Prop :=
  x.2.1 = t.gen ∧ ∃ e a, t.entries[x.2.2]? = some e ∧ l[x.2.2]? = some a ∧ str h x.1 = some a.1 ∧
    (x.1 = e.sel ∨ (keySlot t a.1 = s ∧ ∀ f ∈ t.entries, x.1 ≠ f.sel))

/-- The table holds the handlers `l`: selectors with methods and contexts. -/
structure Handlers (h : Heap) (t : Tab) (l : List (Bytes × Nat × Nat)) : Prop where
  pos : 0 < t.chains.length
  len : t.entries.length = l.length
  ent : ∀ (i : Nat) (e : VT.Entry) (a : Bytes × Nat × Nat), t.entries[i]? = some e → l[i]? = some a → str h e.sel = some a.1 ∧ e.method = a.2.1 ∧ e.ctx = a.2.2
  names : ∀ (i j : Nat) (a b : Bytes × Nat × Nat), l[i]? = some a → l[j]? = some b → a.1 = b.1 → i = j
  sels : ∀ (i j : Nat) (e f : VT.Entry), t.entries[i]? = some e → t.entries[j]? = some f → e.sel = f.sel → i = j
  elem : ∀ (s : Nat) (c : List (Nat × EPtr)), t.chains[s]? = some c → ∀ x ∈ c, ElemOk h t l s x
  find : ∀ (i : Nat) (a : Bytes × Nat × Nat), l[i]? = some a → ∃ c, t.chains[keySlot t a.1]? = some c ∧ ∃ x ∈ c, x.2.2 = i

theorem text_zero {c k : Bytes} (h : text c = some k) : (0 : UInt8) ∉ k ∧ ∃ r, c = k ++ 0 :: r := by
  unfold text at h
  split at h
  · rename_i h0
    cases h
    induction c with
    | nil => cases h0
    | cons x c ih =>
      by_cases hx : x = 0
      · subst hx; exact ⟨by simp, c, by simp⟩
      · obtain ⟨h1, r, h2⟩ := ih (by rcases List.mem_cons.1 h0 with h | h; exact absurd h.symm hx; exact h)
        have hw : (x :: c).takeWhile (· != 0) = x :: c.takeWhile (· != 0) := by
          rw [List.takeWhile_cons_of_pos]; simpa using hx
        refine ⟨?_, r, ?_⟩
        · rw [hw]
          intro hm
          rcases List.mem_cons.1 hm with h | h
          · exact hx h.symm
          · exact h1 h
        · rw [hw, List.cons_append, ← h2]
  · cases h

theorem text_make (k r : Bytes) (h : (0 : UInt8) ∉ k) : text (k ++ 0 :: r) = some k := by
  unfold text
  rw [if_pos (by simp), takeWhile_ne_zero k r h]

theorem str_zero {h : Heap} {b : Nat} {k : Bytes} (hs : str h b = some k) : ∃ c, block h b = some c ∧ text c = some k := by
  unfold str at hs
  cases hb : block h b with
  | none => rw [hb] at hs; cases hs
  | some c => rw [hb] at hs; exact ⟨c, rfl, hs⟩

theorem str_lt {h : Heap} {b : Nat} {k : Bytes} (hs : str h b = some k) : b < h.length := by
  obtain ⟨c, hc, _⟩ := str_zero hs
  unfold block at hc
  cases hh : h[b]? with
  | none => rw [hh] at hc; cases hc
  | some _ => exact (List.getElem?_eq_some_iff.1 hh).1

theorem slotFor_text (t : Tab) (hp : 0 < t.chains.length) {c k : Bytes} (hc : text c = some k) :
    ∃ l, t.chains[keySlot t k]? = some l ∧ slotFor t k.length c = some (keySlot t k, l) := by
  obtain ⟨_, r, rfl⟩ := text_zero hc
  obtain ⟨x, hx⟩ := hash_total k
  have hlt : keySlot t k < t.chains.length := Nat.mod_lt _ hp
  refine ⟨t.chains[keySlot t k], List.getElem?_eq_getElem hlt, ?_⟩
  have hh : hashOf k.length (k ++ 0 :: r) = some x := by
    unfold hashOf
    rw [if_neg (by simp only [List.length_append, List.length_cons]; omega), List.take_left, hx]
  have hk : keySlot t k = x % t.chains.length := by simp [keySlot, hx]
  simp only [slotFor, hh, Option.bind_eq_bind, Option.bind_some]
  rw [← hk, List.getElem?_eq_getElem hlt]
  rfl

/-- All keys of a chain can be read. -/
def Readable (h : Heap) (c : List (Nat × EPtr)) : Prop := ∀ x ∈ c, ∃ n, str h x.1 = some n

theorem lookIn_spec (h : Heap) (k : Bytes) (c : List (Nat × EPtr)) (hr : Readable h c) :
    ∃ r, VT.lookIn h k c = some r ∧ (∀ p, r = some p → ∃ x ∈ c, str h x.1 = some k ∧ x.2 = p) ∧
      (r = none → ∀ x ∈ c, str h x.1 ≠ some k) := by
  induction c with
  | nil => exact ⟨none, rfl, (by intro p hp; cases hp), (by intro _ x hx; cases hx)⟩
  | cons e es ih =>
    obtain ⟨n, hn⟩ := hr e (by simp)
    simp only [VT.lookIn, hn, Option.bind_eq_bind, Option.bind_some]
    by_cases hk : n = k
    · subst hk
      rw [if_pos rfl]
      refine ⟨_, rfl, ?_, by intro h; cases h⟩
      intro p hp; cases hp
      exact ⟨e, by simp, hn, rfl⟩
    · rw [if_neg hk]
      obtain ⟨r, h1, h2, h3⟩ := ih (fun x hx => hr x (by simp [hx]))
      refine ⟨r, h1, ?_, ?_⟩
      · intro p hp
        obtain ⟨x, hx, hx'⟩ := h2 p hp
        exact ⟨x, by simp [hx], hx'⟩
      · intro hr0 x hx
        rcases List.mem_cons.1 hx with rfl | hx
        · rw [hn]; intro hh; cases hh; exact hk rfl
        · exact h3 hr0 x hx

theorem replaceIn_spec (h : Heap) (k : Bytes) (x : Nat × EPtr) (c : List (Nat × EPtr)) (hr : Readable h c) :
    ∃ r, VT.replaceIn h k x c = some r ∧
      ∀ c', r = some c' → x ∈ c' ∧ (∀ y ∈ c', y = x ∨ y ∈ c) ∧ ∀ y ∈ c, str h y.1 ≠ some k → y ∈ c' := by
  induction c with
  | nil => exact ⟨none, rfl, by intro c' hc; cases hc⟩
  | cons e es ih =>
    obtain ⟨n, hn⟩ := hr e (by simp)
    simp only [VT.replaceIn, hn, Option.bind_eq_bind, Option.bind_some]
    by_cases hk : n = k
    · subst hk
      rw [if_pos rfl]
      refine ⟨_, rfl, ?_⟩
      intro c' hc; cases hc
      refine ⟨by simp, ?_, ?_⟩
      · intro y hy
        rcases List.mem_cons.1 hy with h | h
        · exact .inl h
        · exact .inr (by simp [h])
      · intro y hy hne
        rcases List.mem_cons.1 hy with rfl | h
        · exact absurd hn hne
        · simp [h]
    · rw [if_neg hk]
      obtain ⟨r, h1, h2⟩ := ih (fun x hx => hr x (by simp [hx]))
      rw [h1]
      cases r with
      | none => exact ⟨none, rfl, by intro c' hc; cases hc⟩
      | some c1 =>
        refine ⟨some (e :: c1), rfl, ?_⟩
        intro c' hc; cases hc
        obtain ⟨g1, g2, g3⟩ := h2 c1 rfl
        refine ⟨by simp [g1], ?_, ?_⟩
        · intro y hy
          rcases List.mem_cons.1 hy with rfl | h
          · exact .inr (by simp)
          · rcases g2 y h with h | h
            · exact .inl h
            · exact .inr (by simp [h])
        · intro y hy hne
          rcases List.mem_cons.1 hy with rfl | h
          · simp
          · simp [g3 y h hne]

theorem vt_removeIn_spec (h : Heap) (k : Bytes) (c : List (Nat × EPtr)) (hr : Readable h c) :
    ∃ c', VT.removeIn h k c = some c' ∧ ∀ y, y ∈ c' ↔ y ∈ c ∧ str h y.1 ≠ some k := by
  induction c with
  | nil => exact ⟨[], rfl, by simp⟩
  | cons e es ih =>
    obtain ⟨n, hn⟩ := hr e (by simp)
    obtain ⟨c', h1, h2⟩ := ih (fun x hx => hr x (by simp [hx]))
    simp only [VT.removeIn, hn, h1, Option.bind_eq_bind, Option.bind_some]
    by_cases hk : k = n
    · subst hk
      rw [if_pos rfl]
      refine ⟨c', rfl, fun y => ?_⟩
      rw [h2]
      constructor
      · rintro ⟨a, b⟩; exact ⟨by simp [a], b⟩
      · rintro ⟨a, b⟩
        rcases List.mem_cons.1 a with rfl | a
        · exact absurd hn b
        · exact ⟨a, b⟩
    · rw [if_neg hk]
      refine ⟨e :: c', rfl, fun y => ?_⟩
      constructor
      · intro hy
        rcases List.mem_cons.1 hy with rfl | hy
        · exact ⟨by simp, by rw [hn]; intro hh; cases hh; exact hk rfl⟩
        · exact ⟨by simp [((h2 y).1 hy).1], ((h2 y).1 hy).2⟩
      · rintro ⟨a, b⟩
        rcases List.mem_cons.1 a with rfl | a
        · simp
        · simp [(h2 y).2 ⟨a, b⟩]

/-- What `store` does to the chains. -/
theorem store_spec (h : Heap) (t : Tab) (hp : 0 < t.chains.length) (b : Nat) (k : Bytes) (hb : str h b = some k) (p : EPtr)
    (hr : ∀ (s : Nat) c, t.chains[s]? = some c → Readable h c) :
    ∃ t' : Tab, VT.store h t b p = some t' ∧ t'.entries = t.entries ∧ t'.gen = t.gen ∧ t'.slots = t.slots ∧
      t'.chains.length = t.chains.length ∧
      (∀ (s : Nat) c', t'.chains[s]? = some c' → ∃ c, t.chains[s]? = some c ∧
        (∀ y ∈ c', y ∈ c ∨ (y = (b, p) ∧ s = keySlot t k)) ∧ (∀ y ∈ c, str h y.1 ≠ some k → y ∈ c') ∧
        (s = keySlot t k → (b, p) ∈ c')) := by
  obtain ⟨c, hc, hk⟩ := str_zero hb
  obtain ⟨l, hl, hs⟩ := slotFor_text t hp hk
  obtain ⟨r, h1, h2⟩ := replaceIn_spec h k (b, p) l (hr _ _ hl)
  have key : ∀ l', ((b, p) ∈ l') → (∀ y ∈ l', y = (b, p) ∨ y ∈ l) → (∀ y ∈ l, str h y.1 ≠ some k → y ∈ l') →
      ∀ s c', (t.chains.set (keySlot t k) l')[s]? = some c' → ∃ c, t.chains[s]? = some c ∧
        (∀ y ∈ c', y ∈ c ∨ (y = (b, p) ∧ s = keySlot t k)) ∧ (∀ y ∈ c, str h y.1 ≠ some k → y ∈ c') ∧
        (s = keySlot t k → (b, p) ∈ c') := by
    intro l' g1 g2 g3 s c' hc'
    by_cases hsk : keySlot t k = s
    · subst hsk
      rw [List.getElem?_set_self (show keySlot t k < _ from Nat.mod_lt _ hp)] at hc'
      cases hc'
      refine ⟨l, hl, ?_, g3, fun _ => g1⟩
      intro y hy
      rcases g2 y hy with h | h
      · exact .inr ⟨h, rfl⟩
      · exact .inl h
    · rw [List.getElem?_set_ne hsk] at hc'
      exact ⟨c', hc', fun y hy => .inl hy, fun y hy _ => hy, fun h => absurd h.symm hsk⟩
  simp only [VT.store, hc, hk, hs, h1, Option.bind_eq_bind, Option.bind_some]
  cases r with
  | none =>
    refine ⟨_, rfl, rfl, rfl, rfl, by simp, key _ (by simp) ?_ ?_⟩
    · intro y hy
      rcases List.mem_cons.1 hy with h | h
      · exact .inl h
      · exact .inr h
    · intro y hy _; simp [hy]
  | some l' =>
    obtain ⟨g1, g2, g3⟩ := h2 l' rfl
    exact ⟨_, rfl, rfl, rfl, rfl, by simp, key _ g1 g2 g3⟩

/-- What `remove` does to the chains. -/
theorem remove_spec (h : Heap) (t : Tab) (hp : 0 < t.chains.length) (b : Nat) (k : Bytes) (hb : str h b = some k)
    (hr : ∀ (s : Nat) c, t.chains[s]? = some c → Readable h c) :
    ∃ t' : Tab, VT.remove h t k.length b = some t' ∧ t'.entries = t.entries ∧ t'.gen = t.gen ∧ t'.slots = t.slots ∧
      t'.chains.length = t.chains.length ∧
      (∀ (s : Nat) c', t'.chains[s]? = some c' → ∃ c, t.chains[s]? = some c ∧
        (∀ y ∈ c', y ∈ c ∧ (s = keySlot t k → str h y.1 ≠ some k)) ∧ (∀ y ∈ c, str h y.1 ≠ some k → y ∈ c')) := by
  obtain ⟨c, hc, hk⟩ := str_zero hb
  obtain ⟨l, hl, hs⟩ := slotFor_text t hp hk
  obtain ⟨l', h1, h2⟩ := vt_removeIn_spec h k l (hr _ _ hl)
  simp only [VT.remove, hc, hk, hs, h1, Option.bind_eq_bind, Option.bind_some]
  refine ⟨_, rfl, rfl, rfl, rfl, by simp, ?_⟩
  intro s c' hc'
  simp only at hc'
  by_cases hsk : keySlot t k = s
  · subst hsk
    rw [List.getElem?_set_self (show keySlot t k < _ from Nat.mod_lt _ hp)] at hc'
    cases hc'
    exact ⟨l, hl, fun y hy => ⟨((h2 y).1 hy).1, fun _ => ((h2 y).1 hy).2⟩, fun y hy hn => (h2 y).2 ⟨hy, hn⟩⟩
  · rw [List.getElem?_set_ne hsk] at hc'
    exact ⟨c', hc', fun y hy => ⟨hy, fun h => absurd h.symm hsk⟩, fun y hy _ => hy⟩

variable {h : Heap} {t : Tab} {l : List (Bytes × Nat × Nat)}

theorem Handlers.readable (i : Handlers h t l) : ∀ (s : Nat) c, t.chains[s]? = some c → Readable h c := by
  intro s c hc x hx
  obtain ⟨_, _, a, _, _, h3, _⟩ := i.elem s c hc x hx
  exact ⟨_, h3⟩

theorem Handlers.entry (i : Handlers h t l) {j : Nat} {a} (hj : l[j]? = some a) : ∃ e, t.entries[j]? = some e := by
  have := (List.getElem?_eq_some_iff.1 hj).1
  rw [← i.len] at this
  exact ⟨_, List.getElem?_eq_getElem this⟩

theorem Handlers.lookup_some (i : Handlers h t l) {b : Nat} {k : Bytes} (hb : str h b = some k) {j : Nat} {m}
    (hj : l[j]? = some (k, m)) : VT.lookup h t b = some (some (t.gen, j)) := by
  obtain ⟨c, hc, hk⟩ := str_zero hb
  obtain ⟨cl, hl, hs⟩ := slotFor_text t i.pos hk
  obtain ⟨r, h1, h2, h3⟩ := lookIn_spec h k cl (i.readable _ _ hl)
  simp only [VT.lookup, hc, hk, hs, h1, Option.bind_eq_bind, Option.bind_some]
  congr 1
  cases r with
  | none =>
    exfalso
    obtain ⟨c2, hc2, x, hx, hxj⟩ := i.find j _ hj
    rw [show (k, m).1 = k from rfl, hl] at hc2
    cases hc2
    obtain ⟨_, e, a, _, ha, hsx, _⟩ := i.elem _ _ hl x hx
    rw [hxj, hj] at ha
    cases ha
    exact h3 rfl x hx hsx
  | some p =>
    obtain ⟨x, hx, hxs, hxp⟩ := h2 p rfl
    obtain ⟨hg, e, a, _, ha, hsx, _⟩ := i.elem _ _ hl x hx
    rw [hsx] at hxs
    cases hxs
    have := i.names _ _ _ _ ha hj rfl
    rw [← hxp, ← this, ← hg]

theorem Handlers.lookup_none (i : Handlers h t l) {b : Nat} {k : Bytes} (hb : str h b = some k)
    (hj : ∀ a ∈ l, a.1 ≠ k) : VT.lookup h t b = some none := by
  obtain ⟨c, hc, hk⟩ := str_zero hb
  obtain ⟨cl, hl, hs⟩ := slotFor_text t i.pos hk
  obtain ⟨r, h1, h2, h3⟩ := lookIn_spec h k cl (i.readable _ _ hl)
  simp only [VT.lookup, hc, hk, hs, h1, Option.bind_eq_bind, Option.bind_some]
  congr 1
  cases r with
  | none => rfl
  | some p =>
    obtain ⟨x, hx, hxs, hxp⟩ := h2 p rfl
    obtain ⟨hg, e, a, _, ha, hsx, _⟩ := i.elem _ _ hl x hx
    rw [hsx] at hxs
    cases hxs
    exact absurd rfl (hj a (List.mem_of_getElem? ha))

theorem Handlers.index_some (i : Handlers h t l) {j : Nat} {a} (hj : l[j]? = some a) : VT.index t (t.gen, j) = some j := by
  have := (List.getElem?_eq_some_iff.1 hj).1
  unfold VT.index
  rw [if_pos ⟨rfl, by rw [i.len]; exact this⟩]

/-- C95: a call by name calls the handler registered under the name. -/
theorem C95_call (i : Handlers h t l) {b : Nat} {k : Bytes} (hb : str h b = some k) {j m c : Nat} (hj : l[j]? = some (k, m, c)) :
    VT.call h t b = some (0, some (m, c)) := by
  obtain ⟨e, he⟩ := i.entry hj
  obtain ⟨_, h2, h3⟩ := i.ent _ _ _ he hj
  simp only [VT.call, i.lookup_some hb hj, Option.bind_eq_bind, Option.bind_some, i.index_some hj, he, h2, h3]

/-- C95: a call by a name that is not registered makes no call and says so. -/
theorem C95_call_unknown (i : Handlers h t l) {b : Nat} {k : Bytes} (hb : str h b = some k) (hj : ∀ a ∈ l, a.1 ≠ k) :
    VT.call h t b = some (1, none) := by
  simp only [VT.call, i.lookup_none hb hj, Option.bind_eq_bind, Option.bind_some]

theorem keySlot_eq (t t' : Tab) (hl : t'.chains.length = t.chains.length) (k : Bytes) : keySlot t' k = keySlot t k := by
  simp [keySlot, hl]

/-- Changing method and context of an entry. -/
theorem Handlers.set (i : Handlers h t l) {j : Nat} {k : Bytes} {m c m' c' : Nat} (hj : l[j]? = some (k, m, c)) {e : VT.Entry}
    (he : t.entries[j]? = some e) :
    Handlers h { t with entries := t.entries.set j { e with method := m', ctx := c' } } (l.set j (k, m', c')) := by
  have hjl := (List.getElem?_eq_some_iff.1 hj).1
  have hje := (List.getElem?_eq_some_iff.1 he).1
  have hsel : ∀ (n : Nat) (f : VT.Entry), (t.entries.set j { e with method := m', ctx := c' })[n]? = some f →
      ∃ g, t.entries[n]? = some g ∧ g.sel = f.sel := by
    intro n f hf
    by_cases hn : j = n
    · subst hn
      rw [List.getElem?_set_self hje] at hf
      cases hf
      exact ⟨e, he, rfl⟩
    · rw [List.getElem?_set_ne hn] at hf
      exact ⟨f, hf, rfl⟩
  have hsel' : ∀ (n : Nat) (g : VT.Entry), t.entries[n]? = some g → ∃ f, (t.entries.set j { e with method := m', ctx := c' })[n]? = some f ∧ g.sel = f.sel := by
    intro n g hg
    by_cases hn : j = n
    · subst hn
      rw [he] at hg; cases hg
      exact ⟨_, List.getElem?_set_self hje, rfl⟩
    · exact ⟨g, by rw [List.getElem?_set_ne hn, hg], rfl⟩
  have hnm : ∀ (n : Nat) (a : Bytes × Nat × Nat), (l.set j (k, m', c'))[n]? = some a → ∃ b, l[n]? = some b ∧ b.1 = a.1 := by
    intro n a ha
    by_cases hn : j = n
    · subst hn
      rw [List.getElem?_set_self hjl] at ha
      cases ha
      exact ⟨_, hj, rfl⟩
    · rw [List.getElem?_set_ne hn] at ha
      exact ⟨a, ha, rfl⟩
  have hnm' : ∀ (n : Nat) (b : Bytes × Nat × Nat), l[n]? = some b → ∃ a, (l.set j (k, m', c'))[n]? = some a ∧ b.1 = a.1 := by
    intro n b hb
    by_cases hn : j = n
    · subst hn
      rw [hj] at hb; cases hb
      exact ⟨_, List.getElem?_set_self hjl, rfl⟩
    · exact ⟨b, by rw [List.getElem?_set_ne hn, hb], rfl⟩
  refine ⟨i.pos, by simp [i.len], ?_, ?_, ?_, ?_, ?_⟩
  · intro n f a hf ha
    by_cases hn : j = n
    · subst hn
      simp only at hf
      rw [List.getElem?_set_self hje] at hf
      rw [List.getElem?_set_self hjl] at ha
      cases hf; cases ha
      exact ⟨(i.ent _ _ _ he hj).1, rfl, rfl⟩
    · simp only at hf
      rw [List.getElem?_set_ne hn] at hf ha
      exact i.ent _ _ _ hf ha
  · intro n n' a b ha hb hab
    obtain ⟨a', ha', ea⟩ := hnm _ _ ha
    obtain ⟨b', hb', eb⟩ := hnm _ _ hb
    exact i.names _ _ _ _ ha' hb' (by rw [ea, eb, hab])
  · intro n n' a b ha hb hab
    obtain ⟨a', ha', ea⟩ := hsel _ _ ha
    obtain ⟨b', hb', eb⟩ := hsel _ _ hb
    exact i.sels _ _ _ _ ha' hb' (by rw [ea, eb, hab])
  · intro s cl hc x hx
    obtain ⟨hg, f, a, hf, ha, hs, hd⟩ := i.elem s cl hc x hx
    obtain ⟨f', hf', ef⟩ := hsel' _ _ hf
    obtain ⟨a', ha', ea⟩ := hnm' _ _ ha
    refine ⟨hg, f', a', hf', ha', by rw [hs, ea], ?_⟩
    rcases hd with hd | ⟨hd, hx'⟩
    · exact .inl (by rw [hd, ef])
    · refine .inr ⟨by rw [← ea]; exact hd, ?_⟩
      intro g hg'
      obtain ⟨n, hn⟩ := List.mem_iff_getElem?.1 hg'
      obtain ⟨g', hg'', eg⟩ := hsel _ _ hn
      rw [← eg]
      exact hx' g' (List.mem_of_getElem? hg'')
  · intro n a ha
    obtain ⟨b, hb, eb⟩ := hnm _ _ ha
    obtain ⟨cl, hc, x, hx, hxn⟩ := i.find _ _ hb
    exact ⟨cl, by rw [← eb]; exact hc, x, hx, hxn⟩

/-- C95: rebinding changes the method of the handler with the name, and its context if one is given, and nothing else. -/
theorem C95_rebind (i : Handlers h t l) {b : Nat} {k : Bytes} (hb : str h b = some k) {j m c : Nat} (hj : l[j]? = some (k, m, c))
    (m' : Nat) (c' : Option Nat) :
    ∃ t', VT.rebind h t b m' c' = some (0, t') ∧ Handlers h t' (l.set j (k, m', c'.getD c)) := by
  obtain ⟨e, he⟩ := i.entry hj
  obtain ⟨_, h2, h3⟩ := i.ent _ _ _ he hj
  simp only [VT.rebind, i.lookup_some hb hj, Option.bind_eq_bind, Option.bind_some, i.index_some hj, he]
  refine ⟨_, rfl, ?_⟩
  rw [show e.ctx = c from h3]
  exact i.set hj he

/-- C95: rebinding or renaming a name that is not registered is an error and changes nothing. -/
theorem C95_unknown (i : Handlers h t l) {b : Nat} {k : Bytes} (hb : str h b = some k) (hj : ∀ a ∈ l, a.1 ≠ k) (m' : Nat)
    (c' : Option Nat) (new : Nat) :
    VT.rebind h t b m' c' = some (0x20, t) ∧ VT.rename h t b new = some (0x20, h, t) := by
  simp only [VT.rebind, VT.rename, i.lookup_none hb hj, Option.bind_eq_bind, Option.bind_some, and_self]

/-- C95: a new table has no handlers. -/
theorem C95_alloc (n : Nat) (hn : n < 152287) (h : Heap) : ∃ t, VT.alloc n = some t ∧ Handlers h t [] ∧ t.slots = n := by
  have hnew : ∃ ht : HT.HT Nat, HT.new n = some ht ∧ 0 < ht.nslots := by
    unfold HT.new
    simp only
    have : ∀ k : Nat, k < 152287 → ∃ p, HT.getPrime k = some p ∧ 0 < p := by
      intro k hk
      cases hp : HT.getPrime k with
      | none =>
        unfold HT.getPrime at hp
        have := List.find?_eq_none.1 hp 152287 (by decide)
        simp at this; omega
      | some p =>
        refine ⟨p, rfl, ?_⟩
        have := List.find?_some hp
        simp at this; omega
    obtain ⟨p, hp, h0⟩ := this (if (n : Int) ≤ 0 then 541 else (n : Int).toNat) (by split <;> omega)
    rw [hp]
    exact ⟨_, rfl, h0⟩
  obtain ⟨ht, e, hp⟩ := hnew
  unfold VT.alloc
  rw [e]
  refine ⟨_, rfl, ⟨by simpa using hp, rfl, by simp, by simp, by simp, ?_, by simp⟩, rfl⟩
  intro s c hc x hx
  simp only at hc
  rw [List.getElem?_replicate] at hc
  split at hc
  · cases hc; cases hx
  · cases hc

theorem str_append {h : Heap} {b : Nat} {k : Bytes} (hs : str h b = some k) (g : Heap) : str (h ++ g) b = some k := by
  have := str_lt hs
  unfold str block at *
  rw [List.getElem?_append_left this]; exact hs

/-- C95: a handler is added under a new name; strings of the caller stay. -/
theorem C95_add (i : Handlers h t l) (room : t.entries.length < t.slots) {b : Nat} {k : Bytes} (hb : str h b = some k)
    (hk : ∀ a ∈ l, a.1 ≠ k) (m c : Nat) :
    ∃ h' t', VT.addEntry h t b m c = some (h', t') ∧ Handlers h' t' (l ++ [(k, m, c)]) ∧ t'.slots = t.slots ∧
      ∀ b s, str h b = some s → str h' b = some s := by
  have hg : VT.grow t = t := by unfold VT.grow; rw [if_neg (by omega)]
  obtain ⟨cc, hcc, hkt⟩ := str_zero hb
  have hnew : str (h ++ [some (k ++ [0])]) h.length = some k := by
    unfold str block
    simp [text_make k [] (text_zero hkt).1]
  obtain ⟨t', h1, h2, h3, h4, h5, h6⟩ := store_spec (h ++ [some (k ++ [0])]) t i.pos h.length k hnew (t.gen, t.entries.length)
    (fun s c hc x hx => (i.readable s c hc x hx).imp fun n hn => str_append hn _)
  simp only [VT.addEntry, hg, i.lookup_none hb hk, Option.bind_eq_bind, Option.bind_some, hb, h1]
  refine ⟨_, _, rfl, ?_, h4, fun b s hs => str_append hs _⟩
  have hks : ∀ n, keySlot { t' with entries := t.entries ++ [⟨h.length, m, c⟩] } n = keySlot t n := fun n => keySlot_eq _ _ h5 n
  have hlt : ∀ f ∈ t.entries, f.sel < h.length := by
    intro f hf
    obtain ⟨n, hn⟩ := List.mem_iff_getElem?.1 hf
    have hnl := (List.getElem?_eq_some_iff.1 hn).1
    rw [i.len] at hnl
    exact str_lt (i.ent _ _ _ hn (List.getElem?_eq_getElem hnl)).1
  have eget : ∀ n f, (t.entries ++ [⟨h.length, m, c⟩])[n]? = some f →
      t.entries[n]? = some f ∨ (n = l.length ∧ f = ⟨h.length, m, c⟩) := by
    intro n f hf
    by_cases hn : n < t.entries.length
    · rw [List.getElem?_append_left hn] at hf; exact .inl hf
    · rw [List.getElem?_append_right (by omega)] at hf
      obtain ⟨h0, h1⟩ := List.getElem?_eq_some_iff.1 hf
      have : n - t.entries.length = 0 := by simpa using h0
      refine .inr ⟨by rw [← i.len]; omega, ?_⟩
      simp only [this, List.getElem_cons_zero] at h1
      exact h1.symm
  have lget : ∀ n f, (l ++ [(k, m, c)])[n]? = some f → l[n]? = some f ∨ (n = l.length ∧ f = (k, m, c)) := by
    intro n f hf
    by_cases hn : n < l.length
    · rw [List.getElem?_append_left hn] at hf; exact .inl hf
    · rw [List.getElem?_append_right (by omega)] at hf
      obtain ⟨h0, h1⟩ := List.getElem?_eq_some_iff.1 hf
      have : n - l.length = 0 := by simpa using h0
      refine .inr ⟨by omega, ?_⟩
      simp only [this, List.getElem_cons_zero] at h1
      exact h1.symm
  have nolt : ∀ {α} (x : List α) n f, x[n]? = some f → n < x.length := fun x n f hf => (List.getElem?_eq_some_iff.1 hf).1
  refine ⟨by rw [show ({ t' with entries := _ } : Tab).chains = t'.chains from rfl, h5]; exact i.pos, by simp [i.len], ?_, ?_, ?_, ?_, ?_⟩
  · intro n e a he ha
    rcases eget n e he with he | ⟨hn, rfl⟩ <;> rcases lget n a ha with ha | ⟨hn', rfl⟩
    · have := i.ent _ _ _ he ha
      exact ⟨str_append this.1 _, this.2⟩
    · have := nolt _ _ _ he
      rw [i.len] at this; omega
    · have := nolt _ _ _ ha; omega
    · exact ⟨hnew, rfl, rfl⟩
  · intro n n' a a' ha ha' e
    rcases lget n a ha with ha | ⟨hn, rfl⟩ <;> rcases lget n' a' ha' with ha' | ⟨hn', rfl⟩
    · exact i.names _ _ _ _ ha ha' e
    · exact absurd e (hk a (List.mem_of_getElem? ha))
    · exact absurd e.symm (hk a' (List.mem_of_getElem? ha'))
    · omega
  · intro n n' a a' ha ha' e
    rcases eget n a ha with ha | ⟨hn, rfl⟩ <;> rcases eget n' a' ha' with ha' | ⟨hn', rfl⟩
    · exact i.sels _ _ _ _ ha ha' e
    · have := hlt a (List.mem_of_getElem? ha)
      simp only at e; omega
    · have := hlt a' (List.mem_of_getElem? ha')
      simp only at e; omega
    · omega
  · intro s c' hc' x hx
    obtain ⟨co, hco, g1, _, _⟩ := h6 s c' hc'
    rcases g1 x hx with hx | ⟨rfl, hs⟩
    · obtain ⟨hgx, e, a, he, ha, hsx, hd⟩ := i.elem s co hco x hx
      refine ⟨by rw [hgx]; exact h3.symm, e, a, ?_, ?_, str_append hsx _, ?_⟩
      · simp only; rw [List.getElem?_append_left (nolt _ _ _ he)]; exact he
      · rw [List.getElem?_append_left (nolt _ _ _ ha)]; exact ha
      · rcases hd with hd | ⟨hd, hx'⟩
        · exact .inl hd
        · refine .inr ⟨by rw [hks]; exact hd, ?_⟩
          intro f hf
          simp only at hf
          rcases List.mem_append.1 hf with hf | hf
          · exact hx' f hf
          · have : f = ⟨h.length, m, c⟩ := by simpa using hf
            subst this
            have := str_lt hsx
            simp only; omega
    · refine ⟨h3.symm, ⟨h.length, m, c⟩, (k, m, c), by simp, ?_, hnew, .inl rfl⟩
      simp only [i.len]; simp
  · intro n a ha
    have hlen : ∀ n, keySlot t n < t'.chains.length := by intro n; rw [h5]; exact Nat.mod_lt _ i.pos
    obtain ⟨co, hco, _, g2, g3⟩ := h6 (keySlot t a.1) _ (List.getElem?_eq_getElem (hlen _))
    refine ⟨_, by rw [hks]; exact List.getElem?_eq_getElem (hlen _), ?_⟩
    rcases lget n a ha with ha0 | ⟨hn, rfl⟩
    · obtain ⟨c2, hc2, x, hx, hxn⟩ := i.find _ _ ha0
      rw [hco] at hc2; cases hc2
      refine ⟨x, g2 x hx ?_, hxn⟩
      obtain ⟨_, e, a2, _, ha2, hsx, _⟩ := i.elem _ _ hco x hx
      rw [hxn, ha0] at ha2
      cases ha2
      intro hh
      have := str_append hsx [some (k ++ [0])]
      rw [this] at hh
      cases hh
      exact hk a (List.mem_of_getElem? ha0) rfl
    · exact ⟨_, g3 rfl, by simp only; rw [hn, i.len]⟩

/-- C95: adding a handler under a name that is registered replaces method and context. -/
theorem C95_add_again (i : Handlers h t l) (room : t.entries.length < t.slots) {b : Nat} {k : Bytes} (hb : str h b = some k)
    {j m c : Nat} (hj : l[j]? = some (k, m, c)) (m' c' : Nat) :
    ∃ t', VT.addEntry h t b m' c' = some (h, t') ∧ Handlers h t' (l.set j (k, m', c')) ∧ t'.slots = t.slots := by
  have hg : VT.grow t = t := by unfold VT.grow; rw [if_neg (by omega)]
  obtain ⟨e, he⟩ := i.entry hj
  simp only [VT.addEntry, hg, i.lookup_some hb hj, Option.bind_eq_bind, Option.bind_some, i.index_some hj, he]
  exact ⟨_, rfl, i.set hj he, rfl⟩

theorem str_set_ne (h : Heap) {b b' : Nat} (hn : b ≠ b') (x : Option Bytes) : str (h.set b x) b' = str h b' := by
  unfold str block
  rw [List.getElem?_set_ne hn]

theorem str_set_self (h : Heap) {b : Nat} (hb : b < h.length) (c : Bytes) : str (h.set b (some c)) b = text c := by
  unfold str block
  rw [List.getElem?_set_self hb]
  rfl

theorem free_entries (es : List VT.Entry) (hn : es.Pairwise fun e f => e.sel ≠ f.sel) : ∀ h : Heap, (∀ e ∈ es, (VT.block h e.sel).isSome) →
    ∃ h', es.foldlM (fun h e => (VT.block h e.sel).map fun _ => h.set e.sel none) h = some h' ∧ h'.length = h.length ∧
      (∀ e ∈ es, VT.block h' e.sel = none) ∧ ∀ b, (∀ e ∈ es, e.sel ≠ b) → VT.block h' b = VT.block h b := by
  induction es with
  | nil => intro h _; exact ⟨h, rfl, rfl, by simp, fun _ _ => rfl⟩
  | cons e es ih =>
    intro h hl
    obtain ⟨hp, hps⟩ := List.pairwise_cons.mp hn
    obtain ⟨c, hc⟩ := Option.isSome_iff_exists.mp (hl e List.mem_cons_self)
    have hset : ∀ b, e.sel ≠ b → VT.block (h.set e.sel none) b = VT.block h b := fun b hb => by
      unfold VT.block; rw [List.getElem?_set_ne hb]
    obtain ⟨h', e1, e2, e3, e4⟩ := ih hps (h.set e.sel none) (fun f hf => by
      rw [hset _ (hp f hf)]; exact hl f (List.mem_cons_of_mem _ hf))
    refine ⟨h', by rw [List.foldlM_cons, hc]; exact e1, by simpa using e2, ?_, ?_⟩
    · intro f hf
      rcases List.mem_cons.mp hf with rfl | hf
      · rw [e4 _ (fun g hg hs => hp g hg hs.symm)]
        unfold VT.block
        by_cases hb : f.sel < h.length
        · rw [List.getElem?_set_self hb]; rfl
        · rw [List.getElem?_eq_none (by simp; omega)]; rfl
      · exact e3 f hf
    · intro b hb
      rw [e4 b (fun f hf => hb f (List.mem_cons_of_mem _ hf)), hset b (hb e List.mem_cons_self)]

/-- C95: freeing the table frees the name of every handler, none of them twice, and nothing of the caller's. -/
theorem C95_free (i : Handlers h t l) :
    ∃ h', VT.free h t = some h' ∧ (∀ e ∈ t.entries, VT.block h' e.sel = none) ∧ ∀ b, (∀ e ∈ t.entries, e.sel ≠ b) → VT.block h' b = VT.block h b := by
  obtain ⟨h', e1, _, e3, e4⟩ := free_entries t.entries (by
    rw [List.pairwise_iff_getElem]
    intro a b ha hb hab he
    have := i.sels a b _ _ (List.getElem?_eq_getElem ha) (List.getElem?_eq_getElem hb) he
    omega) h (by
    intro e he
    obtain ⟨n, hn⟩ := List.getElem?_of_mem he
    have hlt : n < l.length := by rw [← i.len]; exact (List.getElem?_eq_some_iff.mp hn).1
    have := (i.ent n e _ hn (List.getElem?_eq_getElem hlt)).1
    unfold VT.str at this
    cases hb : VT.block h e.sel with
    | none => rw [hb] at this; cases this
    | some c => rfl)
  exact ⟨h', e1, e3, e4⟩

/-- The table refers to the block. -/
def Refers (t : Tab) (b : Nat) : Prop := (∃ e ∈ t.entries, e.sel = b) ∨ ∃ c ∈ t.chains, ∃ x ∈ c, x.1 = b

/-- C95: what the caller does with other strings does not matter. -/
theorem C95_frame (i : Handlers h t l) (h' : Heap) (hu : ∀ b, Refers t b → str h' b = str h b) : Handlers h' t l := by
  refine ⟨i.pos, i.len, ?_, i.names, i.sels, ?_, i.find⟩
  · intro n e a he ha
    have := i.ent n e a he ha
    rw [hu e.sel (.inl ⟨e, List.mem_of_getElem? he, rfl⟩)]
    exact this
  · intro s c hc x hx
    obtain ⟨h1, e, a, h2, h3, h4, h5⟩ := i.elem s c hc x hx
    refine ⟨h1, e, a, h2, h3, ?_, h5⟩
    rw [hu x.1 (.inr ⟨c, List.mem_of_getElem? hc, x, hx, rfl⟩)]
    exact h4

/-- C95: a handler is renamed to a name that is no longer and not in use, and the others stay, if the old and the new name are
strings of the caller.  What is missing for the full property: longer names (`C95_longer_fails`), and that the string with the
new name may be freed afterwards (`C95_freed_fails`). -/
theorem C95_rename_partial (i : Handlers h t l) {old new : Nat} {o n : Bytes} (ho : str h old = some o) (hn : str h new = some n)
    {j m c : Nat} (hj : l[j]? = some (o, m, c)) (hlen : n.length ≤ o.length)
    (hfresh : ∀ (q : Nat) a, l[q]? = some a → a.1 = n → q = j) (hown : ∀ f ∈ t.entries, f.sel ≠ old ∧ f.sel ≠ new) :
    ∃ h' t', VT.rename h t old new = some (0, h', t') ∧ Handlers h' t' (l.set j (n, m, c)) ∧
      ∀ b, (∀ f ∈ t.entries, f.sel ≠ b) → str h' b = str h b := by
  obtain ⟨e, he⟩ := i.entry hj
  obtain ⟨hsel, hm, hc⟩ := i.ent _ _ _ he hj
  have hem := List.mem_of_getElem? he
  obtain ⟨ce, hce, hte⟩ := str_zero hsel
  obtain ⟨_, r, hcr⟩ := text_zero hte
  have hcl : o.length + 1 ≤ ce.length := by rw [hcr]; simp only [List.length_append, List.length_cons]; omega
  obtain ⟨cn, hcn, htn⟩ := str_zero hn
  have hsl := str_lt hsel
  generalize hh1 : h.set e.sel (some (n ++ 0 :: ce.drop (n.length + 1))) = h1
  have hnew : str h1 e.sel = some n := by
    rw [← hh1, str_set_self h hsl, text_make _ _ (text_zero htn).1]
  have hoth : ∀ b, b ≠ e.sel → str h1 b = str h b := fun b hb => by rw [← hh1, str_set_ne h (Ne.symm hb)]
  have hread : ∀ (s : Nat) c, t.chains[s]? = some c → Readable h1 c := by
    intro s c hc x hx
    by_cases hx' : x.1 = e.sel
    · exact ⟨n, by rw [hx', hnew]⟩
    · exact (i.readable s c hc x hx).imp fun k hk => by rw [hoth _ hx', hk]
  have ho1 : str h1 old = some o := by rw [hoth _ (Ne.symm (hown e hem).1), ho]
  have hn1 : str h1 new = some n := by rw [hoth _ (Ne.symm (hown e hem).2), hn]
  obtain ⟨t1, a1, a2, a3, a4, a5, a6⟩ := remove_spec h1 t i.pos old o ho1 hread
  have hp1 : 0 < t1.chains.length := by rw [a5]; exact i.pos
  obtain ⟨t2, b1, b2, b3, b4, b5, b6⟩ := store_spec h1 t1 hp1 new n hn1 (t.gen, j) (by
    intro s c hc x hx
    obtain ⟨co, hco, g1, _⟩ := a6 s c hc
    exact hread s co hco x (g1 x hx).1)
  refine ⟨h1, { t2 with entries := t.entries.set j { e with sel := e.sel } }, ?_, ?_, ?_⟩
  · simp only [VT.rename, i.lookup_some ho hj, Option.bind_eq_bind, Option.bind_some, i.index_some hj, he, ho, hn, hce]
    rw [if_neg (show ¬ o.length < n.length by omega)]
    simp only
    rw [if_neg (by
      rintro (hx | hx)
      · omega
      · exact (hown e hem).2 hx.symm)]
    simp only [hh1, a1, b1, Option.bind_some, b2, a2]
  · have hent : t.entries.set j { e with sel := e.sel } = t.entries := by
      have h0 := (List.getElem?_eq_some_iff.1 he)
      obtain ⟨h0, h0'⟩ := h0
      rw [show ({ e with sel := e.sel } : VT.Entry) = t.entries[j] from h0'.symm, List.set_getElem_self]
    rw [hent]
    have hjl := (List.getElem?_eq_some_iff.1 hj).1
    have hks1 : ∀ k, keySlot t1 k = keySlot t k := fun k => keySlot_eq _ _ a5 k
    have hks : ∀ k, keySlot { t2 with entries := t.entries } k = keySlot t k := fun k =>
      (keySlot_eq _ _ (show ({ t2 with entries := t.entries } : Tab).chains.length = t.chains.length by simp only; omega) k)
    have hne : ∀ (q : Nat) f, t.entries[q]? = some f → q ≠ j → f.sel ≠ e.sel := fun q f hf hq h' => hq (i.sels _ _ _ _ hf he h')
    have lset : ∀ (q : Nat) a, (l.set j (n, m, c))[q]? = some a → (q = j ∧ a = (n, m, c)) ∨ (q ≠ j ∧ l[q]? = some a) := by
      intro q a ha
      by_cases hq : j = q
      · subst hq
        rw [List.getElem?_set_self hjl] at ha
        cases ha; exact .inl ⟨rfl, rfl⟩
      · rw [List.getElem?_set_ne hq] at ha
        exact .inr ⟨Ne.symm hq, ha⟩
    -- elements that survive the removal
    have helem : ∀ (s : Nat) c', t1.chains[s]? = some c' → ∀ x ∈ c', ElemOk h1 { t2 with entries := t.entries } (l.set j (n, m, c)) s x := by
      intro s c' hc' x hx
      obtain ⟨co, hco, g1, _⟩ := a6 s c' hc'
      obtain ⟨hx1, hx2⟩ := g1 x hx
      obtain ⟨hgx, f, a, hf, ha, hsx, hd⟩ := i.elem s co hco x hx1
      refine ⟨by simp only; rw [b3, a3]; exact hgx, f, ?_⟩
      by_cases hxj : x.2.2 = j
      · rw [hxj] at hf ha
        rw [hf] at he; cases he
        rw [hj] at ha; cases ha
        refine ⟨(n, m, c), by simp only; rw [hxj]; exact hf, by rw [hxj, List.getElem?_set_self hjl], ?_⟩
        rcases hd with hd | ⟨hd, hd'⟩
        · exact ⟨by rw [hd]; exact hnew, .inl hd⟩
        · exfalso
          refine hx2 hd.symm ?_
          rw [hoth _ (hd' _ hem)]
          exact hsx
      · refine ⟨a, hf, by rw [List.getElem?_set_ne (Ne.symm hxj)]; exact ha, ?_⟩
        have hxe : x.1 ≠ e.sel := by
          rcases hd with hd | ⟨_, hd'⟩
          · rw [hd]; exact hne _ _ hf hxj
          · exact hd' e hem
        refine ⟨by rw [hoth _ hxe]; exact hsx, ?_⟩
        rcases hd with hd | ⟨hd, hd'⟩
        · exact .inl hd
        · exact .inr ⟨by rw [hks]; exact hd, hd'⟩
    refine ⟨by simp only; omega, by simp [i.len], ?_, ?_, i.sels, ?_, ?_⟩
    · intro q f a hf ha
      rcases lset q a ha with ⟨rfl, rfl⟩ | ⟨hq, ha⟩
      · simp only at hf
        rw [hf] at he; cases he
        exact ⟨hnew, hm, hc⟩
      · have := i.ent _ _ _ hf ha
        rw [hoth _ (hne _ _ hf hq)]
        exact this
    · intro q q' a a' ha ha' e'
      rcases lset q a ha with ⟨rfl, rfl⟩ | ⟨hq, ha0⟩ <;> rcases lset q' a' ha' with ⟨rfl, rfl⟩ | ⟨hq', ha1⟩
      · rfl
      · exact (hfresh _ _ ha1 e'.symm).symm
      · exact hfresh _ _ ha0 e'
      · exact i.names _ _ _ _ ha0 ha1 e'
    · intro s c' hc' x hx
      obtain ⟨co, hco, g1, _, _⟩ := b6 s c' hc'
      rcases g1 x hx with hx | ⟨rfl, hs⟩
      · exact helem s co hco x hx
      · refine ⟨by simp only; rw [b3, a3], e, (n, m, c), he, by rw [List.getElem?_set_self hjl], hn1, .inr ⟨?_, ?_⟩⟩
        · rw [hks, hs, hks1]
        · intro f hf; exact Ne.symm (hown f hf).2
    · intro q a ha
      have hlt : keySlot t a.1 < t2.chains.length := by rw [b5, a5]; exact Nat.mod_lt _ i.pos
      obtain ⟨co, hco, _, g2, g3⟩ := b6 (keySlot t a.1) _ (List.getElem?_eq_getElem hlt)
      obtain ⟨c0, hc0, _, f2⟩ := a6 _ _ hco
      refine ⟨_, by rw [hks]; exact List.getElem?_eq_getElem hlt, ?_⟩
      rcases lset q a ha with ⟨rfl, rfl⟩ | ⟨hq, ha0⟩
      · exact ⟨_, g3 (by rw [hks1]), rfl⟩
      · obtain ⟨cc, hcc, x, hx, hxq⟩ := i.find _ _ ha0
        rw [hc0] at hcc; cases hcc
        obtain ⟨_, f, a2, hf, ha2, hsx, hd⟩ := i.elem _ _ hc0 x hx
        rw [hxq] at hf ha2
        rw [ha0] at ha2; cases ha2
        have hxe : x.1 ≠ e.sel := by
          rcases hd with hd | ⟨_, hd'⟩
          · rw [hd]; exact hne _ _ hf hq
          · exact hd' e hem
        have hs1 : str h1 x.1 = some a.1 := by rw [hoth _ hxe]; exact hsx
        refine ⟨x, g2 x (f2 x hx ?_) ?_, hxq⟩
        · rw [hs1]; intro hh; cases hh
          exact hq (i.names _ _ _ _ ha0 hj rfl)
        · rw [hs1]; intro hh; cases hh
          exact hq (hfresh _ _ ha0 rfl)
  · intro b hb
    exact hoth b (Ne.symm (hb e hem))

/-- Two handlers, "/a" and "/b"; the caller's strings are "/a", "/b", "/c" and "/long". -/
def twoHandlers : Option (Heap × Tab) := do
  let t ← VT.alloc 4
  let (h, t) ← VT.addEntry [some [47, 97, 0], some [47, 98, 0], some [47, 99, 0], some [47, 108, 111, 110, 103, 0]] t 0 7 1
  VT.addEntry h t 1 8 2

/-- The hypotheses of the theorems are met: "/a" is renamed to "/c" and rebound. -/
example : ∃ h t, twoHandlers = some (h, t) ∧ Handlers h t [([47, 97], 7, 1), ([47, 98], 8, 2)] ∧
    ∃ h' t', VT.rename h t 0 2 = some (0, h', t') ∧ Handlers h' t' [([47, 99], 7, 1), ([47, 98], 8, 2)] ∧
      VT.call h' t' 0 = some (1, none) ∧ VT.call h' t' 2 = some (0, some (7, 1)) ∧ VT.call h' t' 1 = some (0, some (8, 2)) := by
  obtain ⟨t0, e0, i0, r0⟩ := C95_alloc 4 (by decide)
    [some [47, 97, 0], some [47, 98, 0], some [47, 99, 0], some [47, 108, 111, 110, 103, 0]]
  have hl0 : t0.entries.length = 0 := i0.len
  obtain ⟨h1, t1, e1, i1, r1, k1⟩ := C95_add i0 (by omega) (b := 0) (k := [47, 97]) (by decide) (by simp) 7 1
  have hl1 : t1.entries.length = 1 := i1.len
  obtain ⟨h2, t2, e2, i2, r2, k2⟩ := C95_add i1 (by omega) (b := 1) (k := [47, 98]) (k1 _ _ (by decide)) (by simp) 8 2
  have hk : twoHandlers = some (h2, t2) := by
    simp only [twoHandlers, e0, e1, Option.bind_eq_bind, Option.bind_some, e2]
  have hsel : ∀ f ∈ t2.entries, f.sel ≠ 0 ∧ f.sel ≠ 2 := by
    have : ∀ h t, twoHandlers = some (h, t) → ∀ f ∈ t.entries, f.sel ≠ 0 ∧ f.sel ≠ 2 := by
      intro h t e
      have hd : ∀ r, twoHandlers = some r → ∀ f ∈ r.2.entries, f.sel ≠ 0 ∧ f.sel ≠ 2 := by
        have : (twoHandlers.map fun r => r.2.entries.map (·.sel)) = some [4, 5] := by decide +kernel
        intro r hr f hf
        rw [hr] at this
        have h5 : r.2.entries.map (·.sel) = [4, 5] := by simpa using this
        have : f.sel ∈ r.2.entries.map (·.sel) := List.mem_map_of_mem hf
        rw [h5] at this
        simp at this; omega
      exact hd _ e
    exact this _ _ hk
  have q0 : str h2 0 = some [47, 97] := k2 _ _ (k1 _ _ (by decide))
  have q1 : str h2 1 = some [47, 98] := k2 _ _ (k1 _ _ (by decide))
  have q2 : str h2 2 = some [47, 99] := k2 _ _ (k1 _ _ (by decide))
  obtain ⟨h3, t3, e3, i3, k3⟩ := C95_rename_partial i2 q0 q2 (j := 0) rfl (by decide)
    (by
      intro q a ha e
      have := List.mem_of_getElem? ha
      simp only [List.nil_append, List.cons_append, List.mem_cons, List.not_mem_nil, or_false] at this
      rcases this with rfl | rfl <;> exact absurd e (by decide)) hsel
  refine ⟨h2, t2, hk, i2, h3, t3, e3, i3, ?_, ?_, ?_⟩
  · exact C95_call_unknown i3 (by rw [k3 0 (fun f hf => (hsel f hf).1)]; exact q0) (by decide)
  · exact C95_call i3 (by rw [k3 2 (fun f hf => (hsel f hf).2)]; exact q2) (j := 0) rfl
  · refine C95_call i3 (b := 1) (k := [47, 98]) ?_ (j := 1) rfl
    have hd : (twoHandlers.bind fun r => (VT.rename r.1 r.2 0 2).bind fun r' => str r'.2.1 1) = some [47, 98] := by decide +kernel
    rw [hk] at hd
    simpa [e3] using hd

/-- The full property fails: renaming to a longer name may move the string of the entry, which the hash table still refers to;
looking for the old name reads it. -/
theorem C95_longer_fails : ∃ h t, twoHandlers = some (h, t) ∧ VT.rename h t 0 3 = none := by
  have hd : (twoHandlers.map fun r => (VT.rename r.1 r.2 0 3).isNone) = some true := by decide +kernel
  cases hk : twoHandlers with
  | none => rw [hk] at hd; cases hd
  | some r =>
    rw [hk] at hd
    exact ⟨r.1, r.2, rfl, by simpa using hd⟩

/-- The full property fails: after renaming, the hash table refers to the caller's string.  When the caller frees it, a call by
the new name reads freed memory. -/
theorem C95_freed_fails : ∃ h t h' t', twoHandlers = some (h, t) ∧ VT.rename h t 0 2 = some (0, h', t') ∧
    VT.call (h'.set 2 none ++ [some [47, 99, 0]]) t' h'.length = none := by
  have hd : (twoHandlers.bind fun r => (VT.rename r.1 r.2 0 2).map fun q =>
      (decide (q.1 = 0), (VT.call (q.2.1.set 2 none ++ [some [47, 99, 0]]) q.2.2 q.2.1.length).isNone)) = some (true, true) := by
    decide +kernel
  cases hk : twoHandlers with
  | none => rw [hk] at hd; cases hd
  | some r =>
    rw [hk] at hd
    cases hq : VT.rename r.1 r.2 0 2 with
    | none => simp [hq] at hd
    | some q =>
      simp only [Option.bind_some, hq, Option.map_some, Option.some.injEq, Prod.mk.injEq, decide_eq_true_eq] at hd
      obtain ⟨q0, h', t'⟩ := q
      obtain ⟨h1, h2⟩ := hd
      simp only at h1 h2
      subst h1
      exact ⟨r.1, r.2, h', t', rfl, hq, by simpa using h2⟩

/-- Freeing two handlers: their names go, the strings of the caller stay. -/
example : (twoHandlers.bind fun x => (VT.free x.1 x.2).map fun h => (x.1.map Option.isSome, h.map Option.isSome)) =
    some ([true, true, true, true, true, true], [true, true, true, true, false, false]) := by decide +kernel

end Libo.Props
