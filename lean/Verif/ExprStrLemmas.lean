import Verif.ExprStr
import Verif.ExprListLemmas
import Verif.TextRound
/-!
# Lemmas about the string functions of the expression language
-/

namespace Libo.Expr
open Libo Libo.Text

/-! ### Arrays that are filled from the left -/

/-- The first elements hold the values, the others are new. -/
structure Filled (ar : List UAtom) (done : List Val) (n : Nat) : Prop where
  len : ar.length = n
  le : done.length ≤ n
  held : ∀ j v, done[j]? = some v → vat ar j = some v
  free : ∀ j, done.length ≤ j → j < n → ar[j]? = some UAtom.fresh

theorem filled_new (n : Nat) : Filled (mk n) [] n :=
  ⟨mk_length n, by simp, by simp, fun j _ h => by simp [mk, List.getElem?_replicate, h]⟩

theorem filled_set {ar : List UAtom} {done : List Val} {n : Nat} (h : Filled ar done n) (hl : done.length < n) {g : UAtom → Option UAtom}
    {u : UAtom} {v : Val} (hg : g .fresh = some u) (hv : u.val = some v) :
    ∃ ar', setTo ar done.length g = some ar' ∧ Filled ar' (done ++ [v]) n := by
  have hlen := h.len
  refine ⟨ar.set done.length u, by simp [setTo, h.free _ (Nat.le_refl _) hl, hg], by simp [h.len], by simp; omega, fun j x hj => ?_, fun j hj hn => ?_⟩
  · by_cases e : j = done.length
    · subst e
      simp at hj
      subst hj
      simp [vat, hlen, hl, hv]
    · have hj' : done[j]? = some x := by
        rw [List.getElem?_append] at hj
        split at hj
        · exact hj
        · rw [List.getElem?_singleton] at hj
          split at hj
          · omega
          · cases hj
      have := h.held j x hj'
      simp only [vat] at this ⊢
      rwa [List.getElem?_set_ne (Ne.symm e)]
  · simp at hj
    rw [List.getElem?_set_ne (by omega)]
    exact h.free j (by omega) hn

theorem filled_grow {ar : List UAtom} {done : List Val} {n : Nat} (h : Filled ar done n) (m : Nat) : Filled (resizeAr ar (n + m)) done (n + m) := by
  have hlen := h.len
  have he : resizeAr ar (n + m) = ar ++ mk m := by
    unfold resizeAr
    rw [List.take_of_length_le (by omega), hlen, Nat.add_sub_cancel_left]
  rw [he]
  refine ⟨by simp [hlen, mk_length], by have := h.le; omega, fun j v hj => ?_, fun j hj hn => ?_⟩
  · have hj' : j < done.length := (List.getElem?_eq_some_iff.mp hj).1
    have := h.held j v hj
    have hle := h.le
    simp only [vat] at this ⊢
    rwa [List.getElem?_append_left (by omega)]
  · by_cases hjn : j < n
    · rw [List.getElem?_append_left (by omega)]
      exact h.free j hj hjn
    · rw [List.getElem?_append_right (by omega)]
      simp [mk, List.getElem?_replicate]
      omega

theorem filled_cut {ar : List UAtom} {done : List Val} {n : Nat} (h : Filled ar done n) : Holds (some (resizeAr ar done.length)) done := by
  have hlen := h.len
  have hle := h.le
  have he : resizeAr ar done.length = ar.take done.length := by
    unfold resizeAr
    rw [show done.length - ar.length = 0 by omega]
    simp [mk]
  refine (argsVal_iff _ _).mpr ⟨by simp [he]; omega, fun i hi => ?_⟩
  obtain ⟨v, hv⟩ : ∃ v, done[i]? = some v := ⟨_, List.getElem?_eq_getElem hi⟩
  have := h.held i v hv
  rw [hv]
  simp only [vat, Option.getD_some, he] at this ⊢
  rwa [List.getElem?_take_of_lt hi]

theorem filled_all {ar : List UAtom} {done : List Val} (h : Filled ar done done.length) : Holds (some ar) done := by
  have := filled_cut h
  have hlen := h.len
  unfold resizeAr at this
  rw [List.take_of_length_le (by omega)] at this
  simpa [hlen, mk] using this

/-- A loop that sets every element of a new array. -/
theorem forN_set (vs : List Val) (f : Nat → List UAtom → Option (List UAtom))
    (hf : ∀ i v out, vs[i]? = some v → ∃ g u, f i out = setTo out i g ∧ g .fresh = some u ∧ u.val = some v) :
    ∃ out, forN vs.length f (mk vs.length) = some out ∧ Holds (some out) vs := by
  obtain ⟨out, h1, h2⟩ := forN_inv (fun i out => Filled out (vs.take i) vs.length) f vs.length (mk vs.length) (by simpa using filled_new _) (fun i out hi h => by
    obtain ⟨g, u, e, hg, hu⟩ := hf i vs[i] out (List.getElem?_eq_getElem hi)
    have hl : (vs.take i).length = i := by simp; omega
    obtain ⟨out', h3, h4⟩ := filled_set h (by omega) hg hu
    rw [hl] at h3
    refine ⟨out', by rw [e, h3], ?_⟩
    rwa [List.take_append_getElem hi] at h4)
  refine ⟨out, h1, ?_⟩
  rw [List.take_length] at h2
  exact filled_all h2

/-! ### Strings of atoms -/

theorem val_str {a : UAtom} {s : Bytes} (h : a.val = some (.str s)) : ∃ al p, a = .mk 115 al (.str p s) := by
  obtain ⟨tag, al, w⟩ := a
  rcases val_eq tag al w _ h with ⟨_, e⟩ | ⟨_, e⟩ | ⟨_, e⟩ | ⟨_, e⟩ | ⟨_, e⟩ | ⟨rfl, p, s', rfl, e⟩ | ⟨_, p, blk, l, c, _, _, _, e⟩ |
    ⟨_, p, ms, vs, _, _, e⟩ | ⟨e, _⟩ <;> first | cases e
  exact ⟨al, p, rfl⟩

theorem getStr_str (P : Printf) {a : UAtom} {s : Bytes} (h : a.val = some (.str s)) (h0 : (0 : UInt8) ∉ s) : getStr P (some a) = some (some s) := by
  obtain ⟨al, p, rfl⟩ := val_str h
  simp only [getStr, getStrBlk, if_true, Option.bind_some]
  rw [cstr_eq s [] h0, Option.map_some]

theorem getStr_at (P : Printf) {a : Ar} {s : Bytes} {vs : List Val} (h : Holds a (.str s :: vs)) (h0 : (0 : UInt8) ∉ s) :
    getStr P (at? a 0) = some (some s) := by
  obtain ⟨x, h1, h2⟩ := holds_at h (i := 0) rfl
  rw [h1, getStr_str P h2 h0]

theorem setString_fresh (s : Bytes) : (setString .fresh s).val = some (.str s) := by
  simp [setString, UAtom.fresh, UAtom.val, W.raw]

theorem setInt64_fresh (n : Nat) : ∃ u, UAtom.fresh.setInt64 (n : Int) = some u ∧ u.val = some (.num 104 (n % M64)) := by
  refine ⟨.mk 104 false (.bits (n % M64)), ?_, ?_⟩
  · simp only [UAtom.setInt64, UAtom.clear, UAtom.fresh, W.store, W.raw, UAtom.alloc, UAtom.w]
    simp
    rfl
  · simp [UAtom.val, W.raw]

/-! ### Finding -/

theorem strstr_some {sub : Bytes} : ∀ {s : Bytes} {k : Nat}, strstr sub s = some k → sub <+: s.drop k ∧ k ≤ s.length ∧ ∀ j, j < k → ¬ sub <+: s.drop j
  | [], k, h => by
    simp only [strstr] at h
    split at h
    · rename_i hp
      cases h
      exact ⟨by simpa using hp, by simp, by simp⟩
    · cases h
  | c :: s, k, h => by
    simp only [strstr] at h
    split at h
    · rename_i hp
      cases h
      exact ⟨by simpa using hp, by simp, by simp⟩
    · rename_i hp
      rw [Option.map_eq_some_iff] at h
      obtain ⟨k', h, rfl⟩ := h
      obtain ⟨h1, h2, h3⟩ := strstr_some h
      refine ⟨by simpa using h1, by simp; omega, fun j hj => ?_⟩
      cases j with
      | zero => simpa using hp
      | succ j => simpa using h3 j (by omega)

theorem strstr_none {sub : Bytes} (hs : sub ≠ []) : ∀ {s : Bytes}, strstr sub s = none → ∀ j, ¬ sub <+: s.drop j
  | [], h, j => by simp [hs]
  | c :: s, h, j => by
    simp only [strstr] at h
    split at h
    · cases h
    · rename_i hp
      rw [Option.map_eq_none_iff] at h
      cases j with
      | zero => simpa using hp
      | succ j => simpa using strstr_none hs h j

/-- All places where the text is found, from the left, that do not overlap. -/
structure IsFind (sub str : Bytes) (from_ : Nat) (ps : List Nat) : Prop where
  found : ∀ p ∈ ps, from_ ≤ p ∧ sub <+: str.drop p
  apart : ps.Pairwise (fun p q => p + sub.length ≤ q)
  all : ∀ q, from_ ≤ q → sub <+: str.drop q → ∃ p ∈ ps, p ≤ q ∧ q < p + sub.length

theorem prefix_lt {sub str : Bytes} (hs : sub ≠ []) {q : Nat} (h : sub <+: str.drop q) : q + sub.length ≤ str.length := by
  have := h.length_le
  have h0 : 0 < sub.length := List.length_pos_iff.mpr hs
  simp at this
  omega

theorem strfindLoop_spec {sub str : Bytes} (hs : sub ≠ []) {N : Nat} : ∀ (f : Nat) (off : Nat) (ar : List UAtom) (done : List Val),
    str.length - off < f → Filled ar done N → done.length + (str.length - off) ≤ N →
    ∃ ps ar', strfindLoop sub f (str.drop off) off done.length ar = some (done.length + ps.length, ar') ∧
      Filled ar' (done ++ ps.map fun p => .num 104 (p % M64)) N ∧ IsFind sub str off ps
  | 0, off, ar, done, h, _, _ => by omega
  | f + 1, off, ar, done, h, hfill, hN => by
    rw [strfindLoop]
    cases hk : strstr sub (str.drop off) with
    | none =>
      refine ⟨[], ar, by simp, by simpa using hfill, ⟨by simp, by simp, fun q hq hp => ?_⟩⟩
      have := strstr_none hs hk (q - off)
      rw [List.drop_drop, show off + (q - off) = q by omega] at this
      exact absurd hp this
    | some k =>
      obtain ⟨h1, h2, h3⟩ := strstr_some hk
      rw [List.drop_drop] at h1
      have hl := prefix_lt hs h1
      have h0 : 0 < sub.length := List.length_pos_iff.mpr hs
      obtain ⟨u, hu1, hu2⟩ := setInt64_fresh (off + k)
      obtain ⟨ar1, g1, g2⟩ := filled_set hfill (by omega) (g := fun a => a.setInt64 ((off + k : Nat) : Int)) hu1 hu2
      obtain ⟨ps, ar', i1, i2, i3⟩ := strfindLoop_spec (str := str) (N := N) hs f (off + k + sub.length) ar1 (done ++ [.num 104 ((off + k) % M64)]) (by omega) g2
        (by simp; omega)
      refine ⟨(off + k) :: ps, ar', ?_, by simpa using i2, ?_⟩
      · simp only [g1, Option.bind_some]
        rw [List.drop_drop, show off + (k + sub.length) = off + k + sub.length by omega]
        simp only [List.length_append, List.length_singleton] at i1
        rw [i1]
        simp; omega
      · refine ⟨?_, ?_, ?_⟩
        · intro p hp
          rcases List.mem_cons.mp hp with rfl | hp
          · exact ⟨by omega, h1⟩
          · obtain ⟨j1, j2⟩ := i3.found p hp
            exact ⟨by omega, j2⟩
        · refine List.pairwise_cons.mpr ⟨fun q hq => (i3.found q hq).1, i3.apart⟩
        · intro q hq hp
          by_cases hq2 : off + k + sub.length ≤ q
          · obtain ⟨p, j1, j2⟩ := i3.all q hq2 hp
            exact ⟨p, by simp [j1], j2⟩
          · refine ⟨off + k, by simp, ?_, by omega⟩
            by_cases hlt : q < off + k
            · have := h3 (q - off) (by omega)
              rw [List.drop_drop, show off + (q - off) = q by omega] at this
              exact absurd hp this
            · omega

/-! ### Splitting -/

/-- The parts of a text between separators. -/
def pieces (sep : Bytes) : Bytes → List Bytes
  | [] => [[]]
  | c :: s =>
    if sep.contains c then [] :: pieces sep s
    else match pieces sep s with
      | [] => [[c]]
      | p :: ps => (c :: p) :: ps

theorem pieces_ne (sep : Bytes) (s : Bytes) : pieces sep s ≠ [] := by
  cases s with
  | nil => simp [pieces]
  | cons c s =>
    rw [pieces]
    split
    · simp
    · split <;> simp

/-- The parts that are not empty. -/
def tokens (sep : Bytes) (s : Bytes) : List Bytes := (pieces sep s).filter (· ≠ [])

theorem tokens_skip (sep : Bytes) : ∀ s : Bytes, tokens sep s = tokens sep (s.dropWhile sep.contains)
  | [] => rfl
  | c :: s => by
    rw [List.dropWhile_cons]
    split
    · rename_i h
      rw [← tokens_skip sep s, tokens, pieces, if_pos h]
      simp [tokens]
    · rfl

theorem pieces_head (sep : Bytes) : ∀ s : Bytes, ∃ ps, pieces sep s = s.takeWhile (!sep.contains ·) :: ps ∧
    (ps = [] ∧ s.dropWhile (!sep.contains ·) = [] ∨ ∃ c r, s.dropWhile (!sep.contains ·) = c :: r ∧ ps = pieces sep r)
  | [] => ⟨[], by simp [pieces], .inl ⟨rfl, rfl⟩⟩
  | c :: s => by
    rw [pieces, List.takeWhile_cons, List.dropWhile_cons]
    by_cases h : sep.contains c
    · have h' : c ∈ sep := by simpa using h
      refine ⟨pieces sep s, by simp [h'], .inr ⟨c, s, by simp [h'], rfl⟩⟩
    · obtain ⟨ps, h1, h2⟩ := pieces_head sep s
      have h' : c ∉ sep := by simpa using h
      refine ⟨ps, by simp [h', h1], by simpa [h'] using h2⟩

theorem takeWhile_ne {p : UInt8 → Bool} {c : UInt8} {s : Bytes} (h : p c = true) : (c :: s).takeWhile p ≠ [] := by simp [h]

theorem dropWhile_head {p : UInt8 → Bool} : ∀ {s : Bytes} {c : UInt8} {r : Bytes}, s.dropWhile p = c :: r → p c = false
  | [], c, r, h => by simp at h
  | d :: s, c, r, h => by
    rw [List.dropWhile_cons] at h
    split at h
    · exact dropWhile_head h
    · rename_i hd
      cases h
      simpa using hd

theorem dropWhile_le (p : UInt8 → Bool) (s : Bytes) : (s.dropWhile p).length ≤ s.length := by
  have := (List.dropWhile_suffix p (l := s)).length_le
  exact this

theorem strtok_spec (sep s : Bytes) : (strtok sep s = none ∧ tokens sep s = []) ∨
    ∃ t r, strtok sep s = some (t, r) ∧ tokens sep s = t :: tokens sep r ∧ r.length < s.length := by
  rw [tokens_skip]
  unfold strtok
  have hle := dropWhile_le sep.contains s
  cases hd : s.dropWhile sep.contains with
  | nil => exact .inl ⟨by simp, by simp [tokens, pieces]⟩
  | cons c u =>
    rw [hd] at hle
    have hc : sep.contains c = false := dropWhile_head hd
    refine .inr ⟨_, _, by rw [if_neg (by simp)], ?_, ?_⟩
    · obtain ⟨ps, h1, h2⟩ := pieces_head sep (c :: u)
      have hne : (c :: u).takeWhile (!sep.contains ·) ≠ [] := takeWhile_ne (by rw [hc]; rfl)
      rw [tokens, h1, List.filter_cons_of_pos (by simpa using hne)]
      congr 1
      rcases h2 with ⟨rfl, h2⟩ | ⟨d, r, h2, rfl⟩
      · rw [h2]; simp [tokens, pieces]
      · rw [h2]; rfl
    · have h3 : ((c :: u).dropWhile (!sep.contains ·)).length ≤ u.length := by
        rw [List.dropWhile_cons, if_pos (by rw [hc]; rfl)]
        exact dropWhile_le _ u
      simp only [List.length_drop, List.length_cons] at h3 hle ⊢
      omega

theorem splitLoop_spec (sep : Bytes) : ∀ (f : Nat) (s : Bytes) (n : Nat) (ar : List UAtom) (done : List Val),
    s.length < f → Filled ar done n →
    ∃ n' ar', splitLoop sep f s n done.length ar = some (done.length + (tokens sep s).length, ar') ∧
      Filled ar' (done ++ (tokens sep s).map .str) n'
  | 0, s, n, ar, done, h, _ => by omega
  | f + 1, s, n, ar, done, h, hfill => by
    rw [splitLoop]
    rcases strtok_spec sep s with ⟨h1, h2⟩ | ⟨t, r, h1, h2, h3⟩
    · rw [h1, h2]
      exact ⟨n, ar, by simp, by simpa using hfill⟩
    · rw [h1, h2]
      have key : ∀ (m : Nat) (ar1 : List UAtom), Filled ar1 done m → done.length < m →
          ∃ n' ar', ((setTo ar1 done.length fun a => some (setString a t)).bind fun ar => splitLoop sep f r m (done.length + 1) ar) =
            some (done.length + (t :: tokens sep r).length, ar') ∧ Filled ar' (done ++ (t :: tokens sep r).map .str) n' := by
        intro m ar1 hf1 hm
        obtain ⟨ar2, g1, g2⟩ := filled_set hf1 hm (g := fun a => some (setString a t)) rfl (setString_fresh t)
        obtain ⟨n', ar', g3, g4⟩ := splitLoop_spec sep f r m ar2 (done ++ [.str t]) (by omega) g2
        refine ⟨n', ar', ?_, by simpa using g4⟩
        rw [g1, Option.bind_some]
        simp only [List.length_append, List.length_singleton] at g3
        rw [g3]
        simp; omega
      have hle := hfill.le
      by_cases hn : done.length ≥ n
      · simp only [hn, if_true]
        exact key (n + 16) _ (filled_grow hfill 16) (by omega)
      · simp only [hn, if_false]
        exact key n ar hfill (by omega)

/-! ### Joining -/

theorem joinLoop_spec (sep : Bytes) : ∀ (ps : List Bytes) (t buf : Bytes) (k : Nat), ps ≠ [] →
    (ps.map fun p => p.length + sep.length).sum + 1 ≤ k → buf.length = k → ∃ rest,
    joinLoop sep ps t.length (t ++ buf) = some (t ++ between sep ps ++ 0 :: rest)
  | [], t, buf, k, h, _, _ => absurd rfl h
  | [p], t, buf, k, _, hk, hb => by
    simp only [List.map_cons, List.map_nil, List.sum_cons, List.sum_nil] at hk
    refine ⟨(t ++ buf).drop (t.length + p.length + 1), ?_⟩
    simp only [joinLoop, List.isEmpty_nil, if_true, sprintf]
    rw [if_pos (by simp; omega)]
    simp [between]
  | p :: q :: ps, t, buf, k, _, hk, hb => by
    rw [List.map_cons, List.sum_cons] at hk
    have hfit : t.length + (p ++ sep).length + 1 ≤ (t ++ buf).length := by
      rw [List.length_append, List.length_append]; omega
    rw [joinLoop, if_neg (by simp), sprintf, if_pos hfit]
    simp only [Option.bind_some]
    have e : (t ++ buf).take t.length ++ (p ++ sep) ++ 0 :: (t ++ buf).drop (t.length + (p ++ sep).length + 1) =
        (t ++ (p ++ sep)) ++ (0 :: (t ++ buf).drop (t.length + (p ++ sep).length + 1)) := by simp
    have hl : t.length + (p ++ sep).length = (t ++ (p ++ sep)).length := by simp
    rw [e, hl]
    obtain ⟨rest, h⟩ := joinLoop_spec sep (q :: ps) (t ++ (p ++ sep)) (0 :: (t ++ buf).drop (t.length + (p ++ sep).length + 1))
      (k - (p ++ sep).length) (by simp) (by simp only [List.length_append]; omega) (by
        simp only [List.length_cons, List.length_drop, List.length_append] at hfit ⊢; omega)
    rw [hl] at h
    refine ⟨rest, ?_⟩
    rw [h]
    simp [between]

/-! ### The text of values -/

/-- What a value looks like as a string. -/
def strText (P : Printf) : Val → Bytes
  | .str s => s
  | .num tag v => textNum P tag v
  | .bare tag => if tag = 84 then [116, 114, 117, 101] else if tag = 70 then [102, 97, 108, 115, 101] else [110, 105, 108]
  | _ => []

/-- A value that the library can turn into a string: not an unsigned 8-bit number, blob, time tag or bundle. -/
def HasText (P : Printf) : Val → Prop
  | .str s => (0 : UInt8) ∉ s
  | .num tag v => tag ≠ 67 ∧ (0 : UInt8) ∉ textNum P tag v
  | .bare tag => tag = 84 ∨ tag = 70 ∨ tag = 78
  | _ => False

theorem plainText_num {P : Printf} {tag : UInt8} {w : W} {m : Nat}
    (h : ((tag = 99 ∨ tag = 67) ∧ m = M8) ∨ ((tag = 117 ∨ tag = 85) ∧ m = M16) ∨ ((tag = 105 ∨ tag = 73 ∨ tag = 102) ∧ m = M32) ∨
      ((tag = 104 ∨ tag = 72 ∨ tag = 100) ∧ m = M64)) : plainText P tag w = some (textNum P tag (w.raw % m)) := by
  rcases h with ⟨rfl | rfl, rfl⟩ | ⟨rfl | rfl, rfl⟩ | ⟨rfl | rfl | rfl, rfl⟩ | ⟨rfl | rfl | rfl, rfl⟩ <;>
    first
    | (simp [plainText, textNum, W.I, W.H, W.U, castU_nat]; done)
    | (simp only [plainText, textNum, W.i, W.h, W.u, castS_signed (m := M16) (n := 16) rfl, castS_signed (m := M32) (n := 32) rfl,
        castS_signed (m := M64) (n := 64) rfl]; simp)

theorem newBlock_length (P : Printf) (n : Nat) : (newBlock P n).length = n := by simp [newBlock]

theorem getStrBlk_plain (P : Printf) {tag : UInt8} {al : Bool} {w : W} {t : Bytes} (h0 : tag ≠ 115) (h1 : tag ≠ 116) (h2 : tag ≠ 98) (h3 : tag ≠ 67)
    (ht : plainText P tag w = some t) : getStrBlk P (.mk tag al w) = some (t ++ [0]) := by
  have hl := stringLen_plain h1 h2 h3 ht
  simp only [getStrBlk, if_neg h0, hl, Option.bind_some]
  rw [getStringInto_plain h1 h2 ht hl _ _ (by omega) (by rw [newBlock_length]; omega)]
  simp [newBlock]

theorem getStrBlk_text (P : Printf) {a : UAtom} {v : Val} (h : a.val = some v) (ht : HasText P v) : getStrBlk P a = some (strText P v ++ [0]) := by
  obtain ⟨tag, al, w⟩ := a
  rcases val_eq tag al w _ h with ⟨h1, rfl⟩ | ⟨h1, rfl⟩ | ⟨h1, rfl⟩ | ⟨h1, rfl⟩ | ⟨_, rfl⟩ | ⟨rfl, p, s, rfl, rfl⟩ | ⟨_, p, blk, l, c, _, _, _, rfl⟩ |
    ⟨_, p, ms, vs, _, _, rfl⟩ | ⟨rfl, h1⟩
  case inl => exact getStrBlk_plain P (by grind) (by grind) (by grind) ht.1 (plainText_num (.inl ⟨h1, rfl⟩))
  case inr.inl => exact getStrBlk_plain P (by grind) (by grind) (by grind) ht.1 (plainText_num (.inr (.inl ⟨h1, rfl⟩)))
  case inr.inr.inl => exact getStrBlk_plain P (by grind) (by grind) (by grind) ht.1 (plainText_num (.inr (.inr (.inl ⟨h1, rfl⟩))))
  case inr.inr.inr.inl => exact getStrBlk_plain P (by grind) (by grind) (by grind) ht.1 (plainText_num (.inr (.inr (.inr ⟨h1, rfl⟩))))
  case inr.inr.inr.inr.inl => exact ht.elim
  case inr.inr.inr.inr.inr.inl => simp [getStrBlk, strText]
  case inr.inr.inr.inr.inr.inr.inl => exact ht.elim
  case inr.inr.inr.inr.inr.inr.inr.inl => exact ht.elim
  · rcases ht with rfl | rfl | rfl <;> exact getStrBlk_plain P (by decide) (by decide) (by decide) (by decide) rfl

theorem hasText_no0 {P : Printf} {v : Val} (h : HasText P v) : (0 : UInt8) ∉ strText P v := by
  cases v with
  | str s => exact h
  | num tag v => exact h.2
  | bare tag => rcases h with rfl | rfl | rfl <;> simp [strText]
  | _ => exact h.elim

theorem getStr_text (P : Printf) {a : UAtom} {v : Val} (h : a.val = some v) (ht : HasText P v) : getStr P (some a) = some (some (strText P v)) := by
  rw [getStr, getStrBlk_text P h ht, Option.bind_some, cstr_eq _ [] (hasText_no0 ht)]; rfl

theorem getStr_first (P : Printf) {a : Ar} {v : Val} {vs : List Val} (h : Holds a (v :: vs)) (ht : HasText P v) :
    getStr P (at? a 0) = some (some (strText P v)) := by
  obtain ⟨x, h1, h2⟩ := holds_at h (i := 0) rfl
  rw [h1, getStr_text P h2 ht]

/-! ### Elements to join -/

/-- What becomes of a value in `join`: characters are written without quotes. -/
def joined (P : Printf) : Val → Bytes
  | .num tag v => if tag = 99 ∨ tag = 67 then [UInt8.ofNat v] else textNum P tag v
  | v => strText P v

/-- A value that can be joined: no NUL character, no unsigned 8-bit number below 10, no blob, time tag or bundle. -/
def Joinable (P : Printf) : Val → Prop
  | .num tag v => if tag = 99 then UInt8.ofNat v ≠ 0 else if tag = 67 then 10 ≤ v ∧ v < 256 else (0 : UInt8) ∉ textNum P tag v
  | v => HasText P v

theorem cstr_one {x : UInt8} (h : x ≠ 0) (r : Bytes) : cstr (x :: 0 :: r) 0 = some [x] := cstr_eq [x] r (by simpa using h.symm)

theorem dec_length_10 {n : Nat} (h : 10 ≤ n) : 2 ≤ (dec n).length := by
  rw [dec, if_neg (by omega)]
  have := dec_length_pos (n / 10)
  simp; omega

theorem joinPtr_char (P : Printf) {al : Bool} {w : W} (h : 10 ≤ w.raw % M8) : joinPtr P (.mk 67 al w) = some [UInt8.ofNat (w.raw % M8)] := by
  have hlt : w.raw % M8 < 256 := Nat.mod_lt _ (by decide)
  have hx : UInt8.ofNat (w.raw % M8) ≠ 0 := fun e => by
    have := congrArg UInt8.toNat e
    rw [UInt8.toNat_ofNat', Nat.mod_eq_of_lt hlt] at this
    simp at this; omega
  obtain ⟨k, hk, hk2⟩ : ∃ k, stringLen P 67 w = some k ∧ 2 ≤ k := ⟨(decI w.C).length, by simp [stringLen], by rw [W.C, castU_nat]; exact dec_length_10 h⟩
  obtain ⟨j, rfl⟩ : ∃ j, k = j + 2 := ⟨k - 2, by omega⟩
  have hb : ∃ r, getStrBlk P (.mk 67 al w) = some (39 :: UInt8.ofNat (w.raw % M8) :: r) := by
    refine ⟨List.take j [39] ++ [0] ++ (newBlock P (j + 2 + 1)).drop ((List.take j [39]).length + 3), ?_⟩
    simp only [getStrBlk, hk, Option.bind_some, getStringInto]
    rw [if_neg (by decide), if_neg (by decide), if_neg (by decide)]
    simp only [show plainText P 67 w = some [39, UInt8.ofNat (w.raw % M8), 39] from by simp [plainText]]
    have ht : List.take (((j + 2 + 1 : Nat) : Int).toNat - 1) [39, UInt8.ofNat (w.raw % M8), 39] = 39 :: UInt8.ofNat (w.raw % M8) :: List.take j [39] := by
      rw [show ((j + 2 + 1 : Nat) : Int).toNat - 1 = j + 1 + 1 by omega, List.take_succ_cons, List.take_succ_cons]
    have hl : (List.take j [(39 : UInt8)]).length ≤ j := by simp; omega
    simp only [snprintf]
    rw [if_neg (by omega), if_neg (by omega), ht, if_pos (by simp only [List.length_append, List.length_cons, List.length_nil, newBlock_length]; omega)]
    simp
  obtain ⟨r, hb⟩ := hb
  simp only [joinPtr, hb, Option.bind_some, UAtom.tag]
  rw [if_pos (by decide)]
  exact cstr_one hx r

theorem joinPtr_spec (P : Printf) {a : UAtom} {v : Val} (h : a.val = some v) (hj : Joinable P v) : joinPtr P a = some (joined P v) := by
  obtain ⟨tag, al, w⟩ := a
  have key : ∀ t : Bytes, (0 : UInt8) ∉ t → tag ≠ 99 → tag ≠ 67 → getStrBlk P (.mk tag al w) = some (t ++ [0]) → joinPtr P (.mk tag al w) = some t := by
    intro t h0 h1 h2 hb
    simp only [joinPtr, hb, Option.bind_some]
    rw [if_neg (by simp only [UAtom.tag, h1, h2, or_self, not_false_eq_true]), cstr_eq _ [] h0]
  have hbig : ∀ m, ((tag = 117 ∨ tag = 85) ∧ m = M16) ∨ ((tag = 105 ∨ tag = 73 ∨ tag = 102) ∧ m = M32) ∨ ((tag = 104 ∨ tag = 72 ∨ tag = 100) ∧ m = M64) →
      v = .num tag (w.raw % m) → joinPtr P (.mk tag al w) = some (joined P v) := by
    intro m h1 rfl
    have n1 : tag ≠ 99 := by grind
    have n2 : tag ≠ 67 := by grind
    simp only [Joinable, n1, n2, if_false] at hj
    simp only [joined, n1, n2, or_self, if_false]
    exact key _ hj n1 n2 (getStrBlk_plain P (by grind) (by grind) (by grind) n2 (plainText_num (.inr h1)))
  rcases val_eq tag al w _ h with ⟨h1, rfl⟩ | ⟨h1, e⟩ | ⟨h1, e⟩ | ⟨h1, e⟩ | ⟨_, rfl⟩ | ⟨h1, p, s, h2, rfl⟩ | ⟨_, p, blk, l, c, _, _, _, rfl⟩ |
    ⟨_, p, ms, vs, _, _, rfl⟩ | ⟨rfl, h1⟩
  case inl =>
    rcases h1 with rfl | rfl
    · have hx : UInt8.ofNat (w.raw % M8) ≠ 0 := by simpa [Joinable] using hj
      have hb := getStrBlk_plain P (tag := 99) (al := al) (w := w) (by decide) (by decide) (by decide) (by decide) (plainText_num (.inl ⟨.inl rfl, rfl⟩))
      simp only [joinPtr, hb, Option.bind_some, UAtom.tag]
      rw [if_pos (by decide)]
      simp only [textNum, joined]
      exact cstr_one hx _
    · rw [joinPtr_char P (by have := hj; simp [Joinable] at this; exact this.1)]
      simp [joined]
  case inr.inl => exact hbig _ (.inl ⟨h1, rfl⟩) e
  case inr.inr.inl => exact hbig _ (.inr (.inl ⟨h1, rfl⟩)) e
  case inr.inr.inr.inl => exact hbig _ (.inr (.inr ⟨h1, rfl⟩)) e
  case inr.inr.inr.inr.inl => exact hj.elim
  case inr.inr.inr.inr.inr.inl =>
    subst h1
    exact key _ hj (by decide) (by decide) (getStrBlk_text P h hj)
  case inr.inr.inr.inr.inr.inr.inl => exact hj.elim
  case inr.inr.inr.inr.inr.inr.inr.inl => exact hj.elim
  · have hb := getStrBlk_text P h hj
    exact key _ (hasText_no0 (P := P) (v := .bare tag) hj) (by grind) (by grind) hb

theorem joined_no0 {P : Printf} {v : Val} (h : Joinable P v) : (0 : UInt8) ∉ joined P v := by
  cases v with
  | num tag n =>
    simp only [Joinable, joined] at h ⊢
    split at h
    · rename_i e
      rw [if_pos (.inl e)]
      simpa using h.symm
    · split at h
      · rename_i e
        rw [if_pos (.inr e)]
        have hl := h.2
        intro hm
        simp only [List.mem_singleton] at hm
        have := congrArg UInt8.toNat hm
        rw [UInt8.toNat_ofNat', Nat.mod_eq_of_lt hl] at this
        simp at this; omega
      · rename_i e1 e2
        rw [if_neg (by simp [e1, e2])]
        exact h
  | str s => exact h
  | bare tag => exact hasText_no0 (P := P) (v := .bare tag) h
  | _ => exact h.elim

theorem mapM_joinPtr (P : Printf) : ∀ (as : List UAtom) (vs : List Val), argsVal as = some vs → (∀ v ∈ vs, Joinable P v) →
    as.mapM (joinPtr P) = some (vs.map (joined P))
  | [], vs, h, _ => by simp [argsVal] at h; subst h; simp
  | a :: as, vs, h, hj => by
    simp only [argsVal, Option.bind_eq_some_iff, Option.map_eq_some_iff] at h
    obtain ⟨v, h1, vs', h2, rfl⟩ := h
    have e1 := joinPtr_spec P h1 (hj v (by simp))
    have e2 := mapM_joinPtr P as vs' h2 (fun v hv => hj v (by simp [hv]))
    simp [List.mapM_cons, e1, e2]

end Libo.Expr
