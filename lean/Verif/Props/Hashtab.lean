import Verif.Hashtab
/-!
# Property C26: the hash table behaves like a map
-/

namespace Libo.Props
open Libo Libo.HT

variable {V : Type}

/-! ## Specification: a map is a partial function -/

/-- Operations; every caller in the library passes the length of the key. -/
inductive HOp (V : Type) where
  | store (k : Bytes) (v : V)
  | storeSafe (k : Bytes) (v : V)
  | remove (k : Bytes)
  | clear

def mapStep (m : Bytes → Option V) : HOp V → Bytes → Option V
  | .store k v => fun j => if j = k then some v else m j
  | .storeSafe k v => fun j => if j = k ∧ m k = none then some v else m j
  | .remove k => fun j => if j = k then none else m j
  | .clear => fun _ => none

def mapRun (m : Bytes → Option V) : List (HOp V) → Bytes → Option V
  | [] => m
  | o :: os => mapRun (mapStep m o) os

/-- The pairs an operation takes out of a map. -/
def Displaced (m : Bytes → Option V) : HOp V → Bytes × V → Prop
  | .store k _, p => p.1 = k ∧ m k = some p.2
  | .storeSafe _ _, _ => False
  | .remove k, p => p.1 = k ∧ m k = some p.2
  | .clear, p => m p.1 = some p.2

/-! ## Running the model -/

def hstep (t : HT V) : HOp V → Option (HT V × List (Bytes × V))
  | .store k v => store t k.length k v
  | .storeSafe k v => (storeSafe t k.length k v).map fun t => (t, [])
  | .remove k => remove t k.length k
  | .clear => some (HT.clear t)

def hrun (t : HT V) : List (HOp V) → Option (HT V)
  | [] => some t
  | o :: os => (hstep t o).bind fun r => hrun r.1 os

/-- Everything observable agrees with the map `m`: looking up any key, the pairs an iteration visits (each key once) and the
number of entries. -/
structure ShowsMap (t : HT V) (m : Bytes → Option V) : Prop where
  lookup : ∀ k, HT.lookup t k.length k = some (m k)
  visits : ∀ k v, (k, v) ∈ foreach t ↔ m k = some v
  once : ((foreach t).map Prod.fst).Nodup
  count : t.nentries = (foreach t).length

/-! ## Invariant -/

theorem hashLoop_total (key : Bytes) (n i : Nat) (h : UInt64) (hn : i + n ≤ key.length + 1) :
    ∃ r, hashLoop key n i h = some r := by
  induction n generalizing i h with
  | zero => exact ⟨h, rfl⟩
  | succ n ih =>
    have e : (key ++ [0])[i]? = some ((key ++ [0])[i]'(by simp; omega)) := List.getElem?_eq_getElem _
    simp only [hashLoop, e]
    exact ih _ _ (by omega)

/-- A key's own hash is always defined. -/
theorem hash_total (k : Bytes) : ∃ h, HT.hash k.length k = some h := by
  obtain ⟨r, e⟩ := hashLoop_total k k.length 0 0 (by omega)
  exact ⟨_, by simp only [HT.hash, e]; rfl⟩

/-- The slot of a key. -/
def slotOf (n : Nat) (k : Bytes) : Nat := ((HT.hash k.length k).getD 0) % n

structure HInv (t : HT V) : Prop where
  pos : 0 < t.nslots
  len : t.slots.length = t.nslots
  placed : ∀ i c, t.slots[i]? = some c → ∀ e ∈ c, slotOf t.nslots e.1 = i
  nodup : ∀ c ∈ t.slots, (c.map Prod.fst).Nodup
  count : t.nentries = (foreach t).length

theorem chainOf_inv {t : HT V} (i : HInv t) (k : Bytes) :
    ∃ c, chainOf t k.length k = some (slotOf t.nslots k, c) ∧ t.slots[slotOf t.nslots k]? = some c := by
  obtain ⟨h, e⟩ := hash_total k
  have hs : slotOf t.nslots k = h % t.nslots := by simp [slotOf, e]
  have hlt : h % t.nslots < t.slots.length := by rw [i.len]; exact Nat.mod_lt _ i.pos
  refine ⟨t.slots[h % t.nslots], ?_, ?_⟩
  · simp [chainOf, e, hs, hlt]
  · rw [hs]; exact List.getElem?_eq_getElem hlt

/-- What the table says about a key, read off its chain. -/
def absMap (t : HT V) : Bytes → Option V := fun k => ((lookup t k.length k).getD none)

theorem lookup_inv {t : HT V} (i : HInv t) (k : Bytes) : lookup t k.length k = some (absMap t k) := by
  obtain ⟨c, e, _⟩ := chainOf_inv i k
  simp [absMap, lookup, e]

theorem absMap_chain {t : HT V} (i : HInv t) {k : Bytes} {c} (hc : t.slots[slotOf t.nslots k]? = some c) :
    absMap t k = lookIn k c := by
  obtain ⟨c', e, e'⟩ := chainOf_inv i k
  rw [hc] at e'; cases e'
  simp [absMap, lookup, e]

theorem lookIn_iff (k : Bytes) (v : V) (c : List (Bytes × V)) (nd : (c.map Prod.fst).Nodup) :
    lookIn k c = some v ↔ (k, v) ∈ c := by
  induction c with
  | nil => simp [lookIn]
  | cons e es ih =>
    obtain ⟨ek, ev⟩ := e
    simp at nd
    simp only [lookIn]
    split
    · rename_i h
      subst h
      simp
      constructor
      · intro h; exact Or.inl h.symm
      · rintro (h | h)
        · exact h.symm
        · exact absurd h (nd.1 v)
    · rename_i h
      rw [ih nd.2]
      simp
      intro h'
      exact absurd h'.symm h

theorem lookIn_none (k : Bytes) (c : List (Bytes × V)) : lookIn k c = none ↔ k ∉ c.map Prod.fst := by
  induction c with
  | nil => simp [lookIn]
  | cons e es ih =>
    simp only [lookIn]
    split
    · rename_i h; simp [h]
    · rename_i h; rw [ih]; simp [Ne.symm h]

theorem foreach_eq {t : HT V} (i : HInv t) : foreach t = t.slots.flatten := by
  unfold foreach; rw [List.take_of_length_le (by rw [i.len]; exact Nat.le_refl _)]

theorem visits_inv {t : HT V} (i : HInv t) (k : Bytes) (v : V) : (k, v) ∈ foreach t ↔ absMap t k = some v := by
  obtain ⟨c, e, hc⟩ := chainOf_inv i k
  have hcm : c ∈ t.slots := List.mem_of_getElem? hc
  rw [absMap_chain i hc, lookIn_iff _ _ _ (i.nodup c hcm), foreach_eq i, List.mem_flatten]
  constructor
  · rintro ⟨c', hm, hk⟩
    obtain ⟨j, hj⟩ := List.getElem?_of_mem hm
    have := i.placed j c' hj _ hk
    simp only at this
    rw [this] at hc; rw [hj] at hc; cases hc; exact hk
  · intro h; exact ⟨c, hcm, h⟩

theorem nodup_flatten_of (cs : List (List (Bytes × V))) (f : Bytes → Nat) (off : Nat)
    (hp : ∀ i c, cs[i]? = some c → ∀ e ∈ c, f e.1 = off + i) (hn : ∀ c ∈ cs, (c.map Prod.fst).Nodup) :
    (cs.flatten.map Prod.fst).Nodup := by
  induction cs generalizing off with
  | nil => simp
  | cons c cs ih =>
    rw [List.flatten_cons, List.map_append, List.nodup_append]
    refine ⟨hn c (by simp), ih (off + 1) ?_ (fun c' h => hn c' (by simp [h])), ?_⟩
    · intro i c' hc' e he
      have := hp (i + 1) c' (by simpa using hc') e he
      omega
    · intro a ha b hb
      rintro rfl
      obtain ⟨e, he, rfl⟩ := List.mem_map.mp ha
      obtain ⟨e', he', h'⟩ := List.mem_map.mp hb
      obtain ⟨c', hc', hm⟩ := List.mem_flatten.mp he'
      obtain ⟨j, hj⟩ := List.getElem?_of_mem hc'
      have h1 := hp 0 c (by simp) e he
      have h2 := hp (j + 1) c' (by simpa using hj) e' hm
      rw [h'] at h2
      omega

theorem shows_of_hinv {t : HT V} (i : HInv t) : ShowsMap t (absMap t) := by
  refine ⟨lookup_inv i, visits_inv i, ?_, i.count⟩
  rw [foreach_eq i]
  exact nodup_flatten_of t.slots (slotOf t.nslots) 0 (fun j c hj e he => by rw [i.placed j c hj e he]; omega) i.nodup

theorem hinv_empty (n : Nat) (hn : 0 < n) (live : Nat) : HInv (⟨List.replicate n [], n, 0, live⟩ : HT V) := by
  refine ⟨hn, by simp, ?_, ?_, ?_⟩
  · intro i c hc e he
    have := List.mem_of_getElem? hc
    rw [List.eq_of_mem_replicate this] at he; simp at he
  · intro c hc; rw [List.eq_of_mem_replicate hc]; simp
  · simp [foreach]

theorem absMap_empty (n : Nat) (hn : 0 < n) (live : Nat) (k : Bytes) :
    absMap (⟨List.replicate n [], n, 0, live⟩ : HT V) k = none := by
  have i := hinv_empty (V := V) n hn live
  obtain ⟨c, e, hc⟩ := chainOf_inv i k
  rw [absMap_chain i hc]
  have := List.mem_of_getElem? hc
  rw [List.eq_of_mem_replicate this]; rfl

/-- Replacing the chain of key `k`. -/
theorem hinv_set {t : HT V} (i : HInv t) {k : Bytes} {c c' : List (Bytes × V)}
    (hc : t.slots[slotOf t.nslots k]? = some c) (hsub : ∀ e ∈ c', e ∈ c ∨ e.1 = k) (nd : (c'.map Prod.fst).Nodup)
    (ne : Int) (live : Nat) (hne : ne = t.nentries - c.length + c'.length) :
    HInv (⟨t.slots.set (slotOf t.nslots k) c', t.nslots, ne, live⟩ : HT V) ∧
    ∀ j, absMap (⟨t.slots.set (slotOf t.nslots k) c', t.nslots, ne, live⟩ : HT V) j =
      if slotOf t.nslots j = slotOf t.nslots k then lookIn j c' else absMap t j := by
  have hlt : slotOf t.nslots k < t.slots.length := by
    rw [i.len]; exact Nat.mod_lt _ i.pos
  have hI : HInv (⟨t.slots.set (slotOf t.nslots k) c', t.nslots, ne, live⟩ : HT V) := by
    refine ⟨i.pos, by simp [i.len], ?_, ?_, ?_⟩
    · intro j d hj e he
      simp only [List.getElem?_set, hlt, if_true] at hj
      split at hj
      · rename_i h
        cases hj
        rcases hsub e he with h1 | h1
        · rw [← h]; exact i.placed _ c hc e h1
        · rw [← h, h1]
      · exact i.placed j d hj e he
    · intro d hd
      rcases List.mem_or_eq_of_mem_set hd with h | h
      · exact i.nodup d h
      · subst h; exact nd
    · have hlen : ∀ (cs : List (List (Bytes × V))) (n : Nat), cs[n]? = some c →
          ((cs.set n c').flatten.length : Int) = cs.flatten.length - c.length + c'.length := by
        intro cs
        induction cs with
        | nil => intro n h; simp at h
        | cons d ds ih =>
          intro n h
          cases n with
          | zero => simp at h; subst h; simp; omega
          | succ n =>
            have := ih n (by simpa using h)
            simp only [List.set_cons_succ, List.flatten_cons, List.length_append]
            omega
      have h1 := i.count
      rw [foreach_eq i] at h1
      have h2 := hlen t.slots _ hc
      unfold foreach
      simp only
      rw [List.take_of_length_le (by simp [i.len]), h2, hne, h1]
  refine ⟨hI, ?_⟩
  intro j
  split
  · rename_i h
    rw [absMap_chain hI (c := c')]
    simp only
    rw [h, List.getElem?_set_self hlt]
  · rename_i h
    obtain ⟨d, e, hd⟩ := chainOf_inv i j
    rw [absMap_chain hI (c := d), absMap_chain i hd]
    simp only
    rw [List.getElem?_set_ne (Ne.symm h), hd]

theorem replaceIn_some {k : Bytes} {v : V} {c c' : List (Bytes × V)} {old : Bytes × V}
    (h : replaceIn k v c = some (c', old)) :
    c'.map Prod.fst = c.map Prod.fst ∧ (∀ e ∈ c', e ∈ c ∨ e.1 = k) ∧ old.1 = k ∧ lookIn k c = some old.2 ∧
    ∀ j, lookIn j c' = if j = k then some v else lookIn j c := by
  induction c generalizing c' with
  | nil => simp [replaceIn] at h
  | cons e es ih =>
    simp only [replaceIn] at h
    split at h
    · rename_i he
      simp at h
      obtain ⟨rfl, rfl⟩ := h
      refine ⟨by simp [he], ?_, he, by simp [lookIn, he], ?_⟩
      · intro x hx; simp at hx
        rcases hx with rfl | hx
        · exact Or.inr rfl
        · exact Or.inl (by simp [hx])
      · intro j
        simp only [lookIn]
        by_cases hj : j = k
        · simp [hj]
        · rw [if_neg (fun h => hj h.symm), if_neg hj, if_neg (fun h => hj (by rw [← h, he]))]
    · rename_i he
      rw [Option.map_eq_some_iff] at h
      obtain ⟨⟨d, o⟩, h1, h2⟩ := h
      simp at h2
      obtain ⟨rfl, rfl⟩ := h2
      obtain ⟨i1, i2, i3, i4, i5⟩ := ih h1
      refine ⟨by simp [i1], ?_, i3, by simp [lookIn, he, i4], ?_⟩
      · intro x hx; simp at hx
        rcases hx with rfl | hx
        · exact Or.inl (by simp)
        · rcases i2 x hx with h | h
          · exact Or.inl (by simp [h])
          · exact Or.inr h
      · intro j
        simp only [lookIn, i5]
        by_cases hj : j = k
        · simp only [if_pos hj]
          rw [if_neg (fun h => he (by rw [h, hj]))]
        · simp only [if_neg hj]

theorem replaceIn_none {k : Bytes} {v : V} {c : List (Bytes × V)} (h : replaceIn k v c = none) : k ∉ c.map Prod.fst := by
  induction c with
  | nil => simp
  | cons e es ih =>
    simp only [replaceIn] at h
    split at h
    · cases h
    · rename_i he
      simp at h
      have := ih h
      simp only [List.map_cons, List.mem_cons, not_or]
      exact ⟨fun h => he h.symm, this⟩

theorem removeIn_spec (k : Bytes) (c : List (Bytes × V)) :
    (removeIn k c).1 = c.filter (fun e => e.1 ≠ k) ∧ (removeIn k c).2 = c.filter (fun e => e.1 = k) := by
  induction c with
  | nil => exact ⟨rfl, rfl⟩
  | cons e es ih =>
    simp only [removeIn]
    split
    · rename_i h; subst h; simp [ih]
    · rename_i h
      have h' : ¬ e.1 = k := fun x => h x.symm
      simp [ih, h']

theorem lookIn_filter (k j : Bytes) (c : List (Bytes × V)) :
    lookIn j (c.filter fun e => e.1 ≠ k) = if j = k then none else lookIn j c := by
  induction c with
  | nil => simp [lookIn]
  | cons e es ih =>
    by_cases he : e.1 = k
    · rw [List.filter_cons_of_neg (by simp [he]), ih]
      split
      · rfl
      · rename_i h
        simp only [lookIn]
        rw [if_neg (fun x => h (by rw [← x, he]))]
    · rw [List.filter_cons_of_pos (by simp [he])]
      simp only [lookIn, ih]
      split
      · rename_i h
        rw [if_neg (fun x => he (by rw [h, x]))]
      · rfl

theorem hstep_inv {t : HT V} (i : HInv t) (o : HOp V) :
    ∃ t' ds, hstep t o = some (t', ds) ∧ HInv t' ∧ absMap t' = mapStep (absMap t) o ∧
      (∀ p, p ∈ ds ↔ Displaced (absMap t) o p) ∧ ds.Nodup := by
  have nodup_of {l : List (Bytes × V)} (h : (l.map Prod.fst).Nodup) : l.Nodup := by
    rw [List.Nodup, List.pairwise_map] at h
    exact h.imp (fun h e => h (by rw [e]))
  cases o with
  | store k v =>
    obtain ⟨c, e, hc⟩ := chainOf_inv i k
    have nd := i.nodup c (List.mem_of_getElem? hc)
    simp only [hstep, store, e, Option.bind_eq_bind, Option.bind_some]
    cases hr : replaceIn k v c with
    | some r =>
      obtain ⟨c', old⟩ := r
      obtain ⟨i1, i2, i3, i4, i5⟩ := replaceIn_some hr
      have hl : c'.length = c.length := by
        have := congrArg List.length i1; simpa using this
      obtain ⟨hI, hA⟩ := hinv_set i hc i2 (by rw [i1]; exact nd) t.nentries t.live (by omega)
      refine ⟨_, _, rfl, hI, ?_, ?_, by simp⟩
      · funext j
        rw [hA j]
        simp only [mapStep]
        split
        · rename_i h
          rw [i5, absMap_chain i (h ▸ hc)]
        · rename_i h
          rw [if_neg (fun x => h (by rw [x]))]
      · intro p
        simp only [List.mem_singleton, Displaced]
        rw [absMap_chain i hc, i4]
        constructor
        · rintro rfl; exact ⟨i3, rfl⟩
        · rintro ⟨h1, h2⟩
          simp at h2
          exact Prod.ext (by rw [h1, i3]) h2.symm
    | none =>
      have hn := replaceIn_none hr
      obtain ⟨hI, hA⟩ := hinv_set i hc (c' := (k, v) :: c)
        (fun e he => by simp at he; rcases he with rfl | he; exact Or.inr rfl; exact Or.inl he)
        (by rw [List.map_cons, List.nodup_cons]; exact ⟨hn, nd⟩) (t.nentries + 1) (t.live + 1)
        (by simp only [List.length_cons]; omega)
      refine ⟨_, _, rfl, hI, ?_, ?_, by simp⟩
      · funext j
        rw [hA j]
        simp only [mapStep]
        split
        · rename_i h
          rw [absMap_chain i (h ▸ hc)]
          simp only [lookIn]
          by_cases hj : j = k
          · simp [hj]
          · rw [if_neg hj, if_neg (fun x => hj x.symm)]
        · rename_i h
          rw [if_neg (fun x => h (by rw [x]))]
      · intro p
        simp only [List.not_mem_nil, Displaced, false_iff]
        rw [absMap_chain i hc, (lookIn_none k c).mpr hn]
        simp
  | storeSafe k v =>
    obtain ⟨c, e, hc⟩ := chainOf_inv i k
    have nd := i.nodup c (List.mem_of_getElem? hc)
    simp only [hstep, storeSafe, e, Option.bind_eq_bind, Option.bind_some]
    by_cases ha : c.any (·.1 = k) = true
    · rw [if_pos ha]
      refine ⟨_, _, rfl, ⟨i.pos, i.len, i.placed, i.nodup, i.count⟩, ?_, by simp [Displaced], by simp⟩
      funext j
      show absMap t j = _
      simp only [mapStep]
      rw [if_neg]
      rintro ⟨_, h⟩
      rw [absMap_chain i hc, lookIn_none] at h
      simp at ha h
      obtain ⟨x, hx⟩ := ha
      exact h x hx
    · rw [if_neg ha]
      have hn : k ∉ c.map Prod.fst := by
        simp at ha ⊢
        exact ha
      obtain ⟨hI, hA⟩ := hinv_set i hc (c' := (k, v) :: c)
        (fun e he => by simp at he; rcases he with rfl | he; exact Or.inr rfl; exact Or.inl he)
        (by rw [List.map_cons, List.nodup_cons]; exact ⟨hn, nd⟩) (t.nentries + 1) (t.live + 1)
        (by simp only [List.length_cons]; omega)
      refine ⟨_, _, rfl, hI, ?_, by simp [Displaced], by simp⟩
      funext j
      rw [hA j]
      have hk : absMap t k = none := by rw [absMap_chain i hc]; exact (lookIn_none k c).mpr hn
      simp only [mapStep, hk, and_true]
      split
      · rename_i h
        rw [absMap_chain i (h ▸ hc)]
        simp only [lookIn]
        by_cases hj : j = k
        · simp [hj]
        · rw [if_neg hj, if_neg (fun x => hj x.symm)]
      · rename_i h
        rw [if_neg (fun x => h (by rw [x]))]
  | remove k =>
    obtain ⟨c, e, hc⟩ := chainOf_inv i k
    have nd := i.nodup c (List.mem_of_getElem? hc)
    obtain ⟨r1, r2⟩ := removeIn_spec k c
    have hlen : (removeIn k c).1.length + (removeIn k c).2.length = c.length := by
      rw [r1, r2]
      clear r1 r2 e hc nd
      induction c with
      | nil => rfl
      | cons e es ih =>
        by_cases he : e.1 = k
        · rw [List.filter_cons_of_neg (by simp [he]), List.filter_cons_of_pos (by simp [he])]
          simp only [List.length_cons]; omega
        · rw [List.filter_cons_of_pos (by simp [he]), List.filter_cons_of_neg (by simp [he])]
          simp only [List.length_cons]; omega
    simp only [hstep, remove, e, Option.bind_eq_bind, Option.bind_some]
    obtain ⟨hI, hA⟩ := hinv_set i hc (c' := (removeIn k c).1)
      (fun e he => by rw [r1] at he; exact Or.inl (List.mem_filter.mp he).1)
      (by rw [r1]; exact nd.sublist (List.filter_sublist.map _)) (t.nentries - (removeIn k c).2.length)
      (t.live - (removeIn k c).2.length) (by omega)
    refine ⟨_, _, rfl, hI, ?_, ?_, ?_⟩
    · funext j
      rw [hA j]
      simp only [mapStep]
      split
      · rename_i h
        rw [r1, lookIn_filter, absMap_chain i (h ▸ hc)]
      · rename_i h
        rw [if_neg (fun x => h (by rw [x]))]
    · intro p
      rw [r2, List.mem_filter]
      simp only [Displaced]
      rw [absMap_chain i hc, lookIn_iff _ _ _ nd]
      constructor
      · rintro ⟨h1, h2⟩
        simp at h2
        exact ⟨h2, by rw [← h2]; exact h1⟩
      · rintro ⟨h1, h2⟩
        subst h1
        exact ⟨h2, by simp⟩
    · rw [r2]
      exact (nodup_of nd).sublist List.filter_sublist
  | clear =>
    refine ⟨_, _, rfl, hinv_empty _ i.pos _, ?_, ?_, nodup_of (shows_of_hinv i).once⟩
    · funext j
      exact absMap_empty _ i.pos _ j
    · intro p
      exact visits_inv i p.1 p.2

/-! ## C26 -/

/-- **C26.**  On a table made with any size argument the allocator's prime table covers, any sequence of operations succeeds,
and the table then shows exactly the map those operations produce — colliding keys included. -/
theorem C26_map (n : Int) (hn : n < 152287) (os : List (HOp V)) :
    ∃ t t', HT.new n = some t ∧ hrun t os = some t' ∧ ShowsMap t' (mapRun (fun _ => none) os) := by
  have hp : ∃ p, getPrime (if n ≤ 0 then 541 else n.toNat) = some p ∧ 0 < p := by
    have h : ((primes.find? ((if n ≤ 0 then 541 else n.toNat) < ·)).isSome) := by
      rw [List.find?_isSome]
      refine ⟨152287, by simp [primes], ?_⟩
      split <;> simp <;> omega
    obtain ⟨p, hp⟩ := Option.isSome_iff_exists.mp h
    refine ⟨p, hp, ?_⟩
    have := List.find?_some hp
    simp at this
    omega
  obtain ⟨p, e, hpos⟩ := hp
  have key : ∀ (os : List (HOp V)) (t : HT V), HInv t → ∃ t', hrun t os = some t' ∧ ShowsMap t' (mapRun (absMap t) os) := by
    intro os
    induction os with
    | nil => intro t i; exact ⟨t, rfl, shows_of_hinv i⟩
    | cons o os ih =>
      intro t i
      obtain ⟨t1, ds, e1, i1, a1, _, _⟩ := hstep_inv i o
      obtain ⟨t2, e2, s2⟩ := ih t1 i1
      refine ⟨t2, by simp [hrun, e1, e2], ?_⟩
      rw [a1] at s2; exact s2
  obtain ⟨t', e', s'⟩ := key os _ (hinv_empty (V := V) p hpos 0)
  refine ⟨_, t', by simp only [HT.new, e]; rfl, e', ?_⟩
  have : absMap (⟨List.replicate p [], p, 0, 0⟩ : HT V) = fun _ => none := funext (absMap_empty p hpos 0)
  rw [this] at s'
  exact s'

/-- **C26 (destructors).**  After any history, each operation hands exactly the pairs it takes out of the map to the
destructor, each once. -/
theorem C26_destructors (n : Int) (hn : n < 152287) (os : List (HOp V)) (o : HOp V) :
    ∃ t t' t'' ds, HT.new n = some t ∧ hrun t os = some t' ∧ hstep t' o = some (t'', ds) ∧ ds.Nodup ∧
      ∀ p, p ∈ ds ↔ Displaced (mapRun (fun _ => none) os) o p := by
  have key : ∀ (os : List (HOp V)) (t t' : HT V), HInv t → hrun t os = some t' → HInv t' := by
    intro os
    induction os with
    | nil => intro t t' i e; cases e; exact i
    | cons o os ih =>
      intro t t' i e
      obtain ⟨t1, ds, e1, i1, _⟩ := hstep_inv i o
      rw [hrun, e1] at e
      exact ih t1 t' i1 e
  obtain ⟨t, t', e, e', s⟩ := C26_map n hn os
  have hI : HInv t := by
    simp only [HT.new] at e
    rw [Option.map_eq_some_iff] at e
    obtain ⟨p, hp, rfl⟩ := e
    refine hinv_empty p ?_ 0
    have := List.find?_some hp
    simp at this
    omega
  have i' := key os t t' hI e'
  have ha : absMap t' = mapRun (fun _ => none) os := by
    funext k
    have h1 := s.lookup k
    rw [lookup_inv i' k] at h1
    exact Option.some.inj h1
  obtain ⟨t'', ds, e2, _, _, h5, h6⟩ := hstep_inv i' o
  exact ⟨t, t', t'', ds, e, e', e2, h6, fun p => by rw [h5 p, ha]⟩

/-- The bound on the size argument is needed: from the last prime on, the code reads past its prime table. -/
theorem C26_new_overrun (n : Int) (hn : 152287 ≤ n) : (HT.new n : Option (HT V)) = none := by
  have h : getPrime (if n ≤ 0 then 541 else n.toNat) = none := by
    rw [if_neg (by omega)]
    unfold getPrime
    rw [List.find?_eq_none]
    intro x hx
    simp [primes] at hx ⊢
    omega
  simp only [HT.new, h]; rfl

/-- Storing safely under a key already present allocates an element that is never freed: after clearing the table it is still
allocated. -/
theorem C26_storeSafe_leaks : ∃ t t' : HT Nat, HT.new 0 = some t ∧
    hrun t [.store [97] 1, .storeSafe [97] 2, .clear] = some t' ∧ t'.nentries = 0 ∧ t'.live = 1 := by
  refine ⟨_, _, rfl, rfl, ?_, ?_⟩ <;> decide +kernel

/-- The memory: as long as safe stores are not used, the allocated elements number exactly the entries. -/
theorem C26_no_leak (n : Int) (hn : n < 152287) (os : List (HOp V)) (hs : ∀ k v, HOp.storeSafe k v ∉ os) :
    ∃ t t', HT.new n = some t ∧ hrun t os = some t' ∧ (t'.live : Int) = t'.nentries := by
  obtain ⟨t, t', e, e', s⟩ := C26_map n hn os
  refine ⟨t, t', e, e', ?_⟩
  have hI : HInv t ∧ (t.live : Int) = t.nentries := by
    simp only [HT.new] at e
    rw [Option.map_eq_some_iff] at e
    obtain ⟨p, hp, rfl⟩ := e
    refine ⟨hinv_empty p ?_ 0, rfl⟩
    have := List.find?_some hp
    simp at this
    omega
  clear e s
  induction os generalizing t with
  | nil => cases e'; exact hI.2
  | cons o os ih =>
    obtain ⟨i, hl⟩ := hI
    obtain ⟨t1, ds, e1, i1, _⟩ := hstep_inv i o
    rw [hrun, e1] at e'
    refine ih (fun k v h => hs k v (by simp [h])) t1 e' ⟨i1, ?_⟩
    have hc := i.count
    have hc1 := i1.count
    cases o with
    | storeSafe k v => exact absurd (List.mem_cons_self) (hs k v)
    | store k v =>
      obtain ⟨c, ec, _⟩ := chainOf_inv i k
      simp only [hstep, store, ec, Option.bind_eq_bind, Option.bind_some] at e1
      split at e1
      · cases e1; exact hl
      · cases e1; simp only; omega
    | remove k =>
      obtain ⟨c, ec, _⟩ := chainOf_inv i k
      simp only [hstep, remove, ec, Option.bind_eq_bind, Option.bind_some] at e1
      cases e1
      simp only at hc1 ⊢
      omega
    | clear =>
      simp only [hstep, HT.clear] at e1
      cases e1
      simp only
      omega

/-- The key length must be the key's own: stored with a shorter length, a key is not found again. -/
theorem C26_keylen_matters : ∃ t t' : HT Nat, HT.new 0 = some t ∧
    (store t 1 [97, 98] 1).map (·.1) = some t' ∧ HT.lookup t' 2 [97, 98] = some none := by
  refine ⟨_, _, rfl, rfl, ?_⟩; decide +kernel

/-! Two different keys in one slot: `"!"` and `"2"` both go to slot 16 of a 17-slot table. -/

example : slotOf 17 [33] = 16 ∧ slotOf 17 [50] = 16 := by decide
example : ∃ t t' : HT Nat, HT.new 5 = some t ∧
    hrun t [.store [33] 1, .store [50] 2, .store [33] 3, .storeSafe [50] 9, .remove [34]] = some t' ∧
    ShowsMap t' (mapRun (fun _ => none) [.store [33] 1, .store [50] 2, .store [33] 3, .storeSafe [50] 9, .remove [34]]) :=
  C26_map 5 (by omega) _
example : mapRun (fun _ => none) [HOp.store [33] 1, .store [50] 2, .store [33] 3, .storeSafe [50] 9, .remove [34]] [33]
    = some 3 := by decide

end Libo.Props
