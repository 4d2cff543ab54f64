import Verif.TextHelp
import Verif.Props.StrFmt
import Verif.Props.Wire
import Verif.Props.Timetag
/-!
# C99: adding quotes, padded lengths, and strings stored into arguments of messages
-/

namespace Libo.Props
open Libo

/-! ## Padded lengths -/

theorem cstrlen_prefix (s post : Bytes) (h : (0 : UInt8) ∉ s) : cstrlen (s ++ 0 :: post) 0 = some s.length := by
  have e : (s ++ 0 :: post).takeWhile (· != 0) = s := by
    induction s with
    | nil => rfl
    | cons a s ih =>
      simp only [List.mem_cons, not_or] at h
      have : (a != 0) = true := by simpa using fun h' => h.1 h'.symm
      simp [this, ih h.2]
  unfold cstrlen
  simp only [List.drop_zero, e, List.length_append, List.length_cons]
  rw [if_pos (by omega)]

/-- The padded length of a string is the smallest multiple of four with room for the string and a NUL. -/
theorem C99_padded (s post : Bytes) (h : (0 : UInt8) ∉ s) (hs : s.length < 2147483644) :
    ∃ n, strlenPadded (s ++ 0 :: post) = some n ∧ Smallest (fun m => 4 ∣ m ∧ s.length < m) n := by
  unfold strlenPadded
  rw [cstrlen_prefix s post h, Option.bind_some, if_neg (by omega)]
  refine ⟨_, rfl, ⟨?_, ?_⟩, ?_⟩
  · show 4 ∣ (if s.length % 4 ≠ 0 then _ else _); split <;> omega
  · show s.length < (if s.length % 4 ≠ 0 then _ else _); split <;> omega
  · rintro k ⟨⟨q, rfl⟩, hk⟩
    show (if s.length % 4 ≠ 0 then _ else _) ≤ _; split <;> omega

example : strlenPadded ([47, 97, 98] ++ 0 :: [7]) = some 4 ∧ strlenPadded ([47, 97, 98, 99] ++ 0 :: []) = some 8 := by decide

/-! ## Quotes -/

/-- The text with a quote at the beginning and at the end, where there is none. -/
def quoted (s : Bytes) : Bytes :=
  (if s.head? = some 34 then [] else [34]) ++ s ++ (if s.getLast? = some 34 then [] else [34])

theorem strncpyBytes_prefix (s rest : Bytes) (h : (0 : UInt8) ∉ s) : strncpyBytes (s ++ rest) s.length = some s := by
  unfold strncpyBytes
  have e : s.takeWhile (· != 0) = s := by
    have : ∀ x ∈ s, (x != 0) = true := by
      intro x hx
      simp only [bne_iff_ne, ne_eq]
      intro h'; exact h (h' ▸ hx)
    clear h
    induction s with
    | nil => rfl
    | cons a s ih => simp [this a (by simp), ih fun x hx => this x (by simp [hx])]
  simp only [List.take_left', e]
  rw [if_neg (by omega)]
  simp

theorem cut_at (buf : Bytes) (k : Nat) (h : k ≤ buf.length) : ∃ x y, buf = x ++ y ∧ x.length = k :=
  ⟨buf.take k, buf.drop k, by simp, by simp; omega⟩

theorem blit_split (pre old post src : Bytes) (h : old.length = src.length) :
    blit (pre ++ old ++ post) pre.length src = some (pre ++ src ++ post) := by
  unfold blit
  rw [if_neg (by simp; omega)]
  have e1 : (pre ++ old ++ post).take pre.length = pre := by rw [List.append_assoc]; exact List.take_left' rfl
  have e2 : (pre ++ old ++ post).drop (pre.length + src.length) = post := List.drop_left' (by simp [h])
  rw [e1, e2]

theorem addQuotesTo_room (s rest out : Bytes) (hs : s ≠ []) (h0 : (0 : UInt8) ∉ s) (hr : (quoted s).length < out.length) :
    addQuotesTo s.length (s ++ rest) out =
      some ((quoted s).length, quoted s ++ 0 :: out.drop ((quoted s).length + 1)) := by
  obtain ⟨a, s', rfl⟩ := List.exists_cons_of_ne_nil hs
  obtain ⟨z, hz⟩ : ∃ z, (a :: s').getLast? = some z := ⟨_, List.getLast?_eq_some_getLast hs⟩
  have hz' : (a :: s' ++ rest)[(a :: s').length - 1]? = some z := by
    rw [List.getElem?_append_left (by simp), ← hz, List.getLast?_eq_getElem?]
  generalize hS : a :: s' = S at *
  have ha : (S ++ rest)[0]? = some a := by subst hS; rfl
  have hh : S.head? = some a := by subst hS; rfl
  have hl : S.length ≠ 0 := by subst hS; simp
  unfold addQuotesTo
  rw [ha, Option.bind_some, strncpyBytes_prefix S rest h0]
  simp only [Option.bind_some]
  rw [if_neg hl, hz']
  unfold quoted at hr ⊢
  rw [hh, hz] at hr ⊢
  simp only [Option.some.injEq, Option.bind_some] at hr ⊢
  by_cases e1 : a = 34 <;> by_cases e2 : z = 34
  · rw [if_neg (by simpa using e1)]
    simp only [e1, e2, if_true, ne_eq, not_true_eq_false, if_false, List.nil_append, List.append_nil, Option.bind_some] at hr ⊢
    obtain ⟨x, y, rfl, hx⟩ := cut_at out S.length (by omega)
    obtain ⟨w, y, rfl⟩ : ∃ w y', y = w :: y' := List.exists_cons_of_ne_nil (by rintro rfl; simp at hr; omega)
    have := blit_split [] x (w :: y) S hx
    simp only [List.nil_append, List.length_nil] at this
    rw [this]
    simp only [Nat.zero_add, Option.bind_some]
    rw [wr8_mid S y w 0 rfl]
    rw [show x ++ w :: y = (x ++ [w]) ++ y by simp, List.drop_left' (by simp [hx])]
    simp
  · rw [if_neg (by simpa using e1)]
    simp only [e1, e2, if_true, ne_eq, not_false_eq_true, if_false, List.nil_append, Option.bind_some] at hr ⊢
    simp only [List.length_append, List.length_singleton] at hr ⊢
    obtain ⟨x, y, rfl, hx⟩ := cut_at out S.length (by omega)
    obtain ⟨w, y, rfl⟩ : ∃ w y', y = w :: y' := List.exists_cons_of_ne_nil (by rintro rfl; simp at hr; omega)
    obtain ⟨v, y, rfl⟩ : ∃ w y', y = w :: y' := List.exists_cons_of_ne_nil (by rintro rfl; simp at hr; omega)
    have := blit_split [] x (w :: v :: y) S hx
    simp only [List.nil_append, List.length_nil] at this
    rw [this]
    simp only [Nat.zero_add, Option.bind_some]
    rw [wr8_mid S (v :: y) w 34 rfl, Option.map_some, Option.bind_some]
    simp only []
    rw [wr8_mid (S ++ [34]) y v 0 (by simp)]
    rw [show x ++ w :: v :: y = (x ++ [w, v]) ++ y by simp, List.drop_left' (by simp [hx])]
    simp
  · rw [if_pos (by simpa using e1)]
    simp only [e1, e2, if_true, ne_eq, not_true_eq_false, if_false, List.append_nil] at hr ⊢
    simp only [List.length_append, List.length_singleton] at hr ⊢
    obtain ⟨u, out, rfl⟩ : ∃ w y', out = w :: y' := List.exists_cons_of_ne_nil (by rintro rfl; simp at hr)
    obtain ⟨x, y, rfl, hx⟩ := cut_at out S.length (by simp at hr; omega)
    obtain ⟨w, y, rfl⟩ : ∃ w y', y = w :: y' := List.exists_cons_of_ne_nil (by rintro rfl; simp at hr; omega)
    have := blit_split [34] x (w :: y) S hx
    simp only [List.length_singleton] at this
    have e := wr8_mid [] (x ++ w :: y) u 34 rfl
    simp only [List.nil_append, List.length_nil] at e
    rw [e, Option.map_some, Option.bind_some]
    simp only []
    rw [← List.append_assoc, this]
    simp only [Option.bind_some]
    rw [wr8_mid ([34] ++ S) y w 0 (by simp; omega)]
    rw [show u :: (x ++ w :: y) = (u :: x ++ [w]) ++ y by simp, List.drop_left' (by simp [hx]; omega)]
    simp
  · rw [if_pos (by simpa using e1)]
    simp only [e1, e2, ne_eq, not_false_eq_true, if_true, if_false] at hr ⊢
    simp only [List.length_append, List.length_singleton] at hr ⊢
    obtain ⟨u, out, rfl⟩ : ∃ w y', out = w :: y' := List.exists_cons_of_ne_nil (by rintro rfl; simp at hr)
    obtain ⟨x, y, rfl, hx⟩ := cut_at out S.length (by simp at hr; omega)
    obtain ⟨w, y, rfl⟩ : ∃ w y', y = w :: y' := List.exists_cons_of_ne_nil (by rintro rfl; simp at hr; omega)
    obtain ⟨v, y, rfl⟩ : ∃ w y', y = w :: y' := List.exists_cons_of_ne_nil (by rintro rfl; simp at hr; omega)
    have := blit_split [34] x (w :: v :: y) S hx
    simp only [List.length_singleton] at this
    have e := wr8_mid [] (x ++ w :: v :: y) u 34 rfl
    simp only [List.nil_append, List.length_nil] at e
    rw [e, Option.map_some, Option.bind_some]
    simp only []
    rw [← List.append_assoc, this]
    simp only [Option.bind_some]
    rw [wr8_mid ([34] ++ S) (v :: y) w 34 (by simp; omega), Option.map_some, Option.bind_some]
    simp only []
    rw [wr8_mid ([34] ++ S ++ [34]) y v 0 (by simp; omega)]
    rw [show u :: (x ++ w :: v :: y) = (u :: x ++ [w, v]) ++ y by simp, List.drop_left' (by simp [hx]; omega)]
    simp

theorem quoted_length (s : Bytes) : s.length ≤ (quoted s).length ∧ (quoted s).length ≤ s.length + 2 := by
  unfold quoted
  constructor <;> (simp only [List.length_append]; split <;> split <;> simp <;> omega)

/-- Adding quotes to a text that is not empty, in a buffer of its own: the buffer is large enough for every text and holds the text with the
missing quotes, and its length is returned. -/
theorem C99_quotes (junk : Nat → UInt8) (s rest : Bytes) (hs : s ≠ []) (h0 : (0 : UInt8) ∉ s) :
    ∃ blk, addQuotes junk s.length (s ++ rest) none = some ((quoted s).length, blk) ∧ blk.length = s.length + 3 ∧
      cstr blk 0 = some (quoted s) := by
  have hl := quoted_length s
  have := addQuotesTo_room s rest ((List.range (s.length + 3)).map junk) hs h0 (by simp; omega)
  refine ⟨_, this, by simp; omega, cstr_prefix _ _ ?_⟩
  unfold quoted
  simp only [List.mem_append, not_or]
  exact ⟨⟨by split <;> simp, h0⟩, by split <;> simp⟩

/-- In a buffer of the caller with room for the result and a NUL, the bytes behind are not touched. -/
theorem C99_quotes_buffer (junk : Nat → UInt8) (s rest out : Bytes) (hs : s ≠ []) (h0 : (0 : UInt8) ∉ s) (hr : (quoted s).length < out.length) :
    addQuotes junk s.length (s ++ rest) (some out) =
      some ((quoted s).length, quoted s ++ 0 :: out.drop ((quoted s).length + 1)) :=
  addQuotesTo_room s rest out hs h0 hr

/-- The full statement: the result is a quoted string that reads back as the text. -/
def C99_quotes_full : Prop :=
  ∀ (junk : Nat → UInt8) (s rest : Bytes), (0 : UInt8) ∉ s → ∃ n blk t,
    addQuotes junk s.length (s ++ rest) none = some (n, blk) ∧ cstr blk 0 = some t ∧ readLiteral t = some (s, [])

theorem quoted_plain (s : Bytes) (hs : s ≠ []) (h : ∀ c ∈ s, special c = false) : quoted s = literal s := by
  have he : escape s = s := by
    clear hs
    induction s with
    | nil => rfl
    | cons a s ih =>
      rw [escape_cons, h a (by simp), ih fun c hc => h c (by simp [hc])]
      rfl
  have hq : ∀ c, c = (34 : UInt8) → c ∉ s := by
    rintro c rfl hc
    have := h _ hc
    revert this
    decide
  unfold quoted literal
  rw [he, if_neg fun hh => hq _ rfl (List.mem_of_head? hh), if_neg fun hh => hq _ rfl (List.mem_of_getLast? hh)]
  rfl

/-- The full statement holds for texts that are not empty and contain neither quotes nor backslashes. -/
theorem C99_quotes_partial (junk : Nat → UInt8) (s rest : Bytes) (hs : s ≠ []) (h0 : (0 : UInt8) ∉ s) (hp : ∀ c ∈ s, special c = false) :
    ∃ n blk t, addQuotes junk s.length (s ++ rest) none = some (n, blk) ∧ cstr blk 0 = some t ∧ readLiteral t = some (s, []) := by
  obtain ⟨blk, e, _, c⟩ := C99_quotes junk s rest hs h0
  refine ⟨_, blk, _, e, c, ?_⟩
  rw [quoted_plain s hs hp]
  simpa using C33_unambiguous s []

/-- A byte before the empty text is read. -/
theorem C99_quotes_empty (junk : Nat → UInt8) (rest : Bytes) (out : Option Bytes) : addQuotes junk 0 rest out = none := by
  unfold addQuotes addQuotesTo
  generalize out.getD _ = o
  cases rest[0]? with
  | none => rfl
  | some a =>
    simp only [Option.bind_some]
    generalize (if a ≠ 34 then (wr8 o 0 34).map fun o => (o, 1) else some (o, 0)) = q
    cases q with
    | none => rfl
    | some q =>
      simp only [Option.bind_some, if_true]
      cases strncpyBytes rest 0 with
      | none => rfl
      | some s =>
        simp only [Option.bind_some]
        cases blit q.1 q.2 s <;> rfl

theorem C99_quotes_full_fails : ¬ C99_quotes_full := by
  intro h
  obtain ⟨n, blk, t, e, _⟩ := h (fun _ => 0) [] [0] (by simp)
  rw [List.length_nil, C99_quotes_empty] at e
  cases e

/-- A text with a quote inside reads back as less; a single quote stays single and does not read back at all. -/
theorem C99_quotes_inside : readLiteral (quoted [97, 34, 98]) = some ([97], [98, 34]) ∧ readLiteral (quoted [34]) = none := by decide

/-- Adding quotes again changes nothing. -/
theorem C99_quotes_again (s : Bytes) (hs : s ≠ []) : quoted (quoted s) = quoted s := by
  have h1 : (quoted s).head? = some 34 := by
    unfold quoted
    split
    next h => obtain ⟨a, t, rfl⟩ := List.exists_cons_of_ne_nil hs; simpa using h
    next h => simp
  have h2 : (quoted s).getLast? = some 34 := by
    unfold quoted
    split
    all_goals
      split
      next h => rw [List.append_nil, List.getLast?_append, h]; rfl
      next h => rw [List.getLast?_append]; rfl
  generalize quoted s = q at h1 h2
  unfold quoted
  simp [h1, h2]

example : addQuotes (fun _ => 9) 2 ([97, 98] ++ [7]) none = some (4, [34, 97, 98, 34, 0]) := by decide
example : addQuotes (fun _ => 9) 3 ([34, 97, 98] ++ [7]) (some [1, 1, 1, 1, 1, 1]) = some (4, [34, 97, 98, 34, 0, 1]) := by decide

/-! ## Strings and time tags stored into arguments -/

/-- A string stored in an atom without data: a new block that holds it. -/
theorem C99_setString_new (junk : Nat → UInt8) (v : Bytes) (h0 : (0 : UInt8) ∉ v) :
    ∃ blk, AtomS.setString junk none v = some (115, blk, 0) ∧ blk.length = v.length + 1 ∧ cstr blk 0 = some v := by
  have := blit_split [] ((List.range (v.length + 1)).map junk) [] (v ++ [0]) (by simp)
  simp only [List.nil_append, List.append_nil, List.length_nil] at this
  refine ⟨v ++ [0], ?_, by simp, cstr_prefix v [] h0⟩
  unfold AtomS.setString strcpyAt
  simp only []
  rw [this]
  rfl

/-- A string stored in the place of a string of a message: if the new string and a NUL fit into the padded old one, the string reads back and
everything before and behind the padded old string is unchanged. -/
theorem C99_setString_partial (junk : Nat → UInt8) (pre old post v : Bytes) (h0 : (0 : UInt8) ∉ v) (hv : v.length < old.length) :
    ∃ new, AtomS.setString junk (some (pre ++ old ++ post, pre.length)) v = some (115, pre ++ new ++ post, pre.length) ∧
      new.length = old.length ∧ ∀ rest, cstr (new ++ rest) 0 = some v := by
  obtain ⟨x, y, rfl, hx⟩ := cut_at old (v.length + 1) (by omega)
  refine ⟨v ++ [0] ++ y, ?_, by simp [hx]; omega, fun rest => ?_⟩
  · unfold AtomS.setString strcpyAt
    simp only []
    have := blit_split pre x (y ++ post) (v ++ [0]) (by simp [hx])
    rw [show pre ++ (x ++ y) ++ post = pre ++ x ++ (y ++ post) by simp, this]
    simp
  · have := cstr_prefix v (y ++ rest) h0
    simpa using this

/-- The full statement: for every string the bytes behind the padded old string are unchanged. -/
def C99_setString_full : Prop :=
  ∀ (junk : Nat → UInt8) (pre old post v : Bytes), (0 : UInt8) ∉ v → 4 ∣ old.length →
    ∃ new, AtomS.setString junk (some (pre ++ old ++ post, pre.length)) v = some (115, pre ++ new ++ post, pre.length)

/-- The full statement is false: the length of the place is not looked at, a longer string runs into the next argument. -/
theorem C99_setString_full_fails : ¬ C99_setString_full := by
  intro h
  obtain ⟨new, e⟩ := h (fun _ => 0) [] [97, 0, 0, 0] [1, 0, 0, 5] [97, 98, 99, 100] (by decide) ⟨1, rfl⟩
  have e2 : AtomS.setString (fun _ => 0) (some ([] ++ [97, 0, 0, 0] ++ [1, 0, 0, 5], 0)) [97, 98, 99, 100] =
      some (115, [97, 98, 99, 100, 0, 0, 0, 5], 0) := by decide
  have e3 : some ((115 : UInt8), ([97, 98, 99, 100, 0, 0, 0, 5] : Bytes), 0) = some (115, [] ++ new ++ [1, 0, 0, 5], 0) := e2.symm.trans e
  simp only [Option.some.injEq, Prod.mk.injEq, true_and, and_true, List.nil_append] at e3
  have hl := congrArg List.length e3
  simp only [List.length_append, List.length_cons, List.length_nil] at hl
  match new, hl with
  | [a, b, c, d], _ => simp at e3

/-- Behind the end of the memory there is no room at all. -/
theorem C99_setString_outside (junk : Nat → UInt8) (pre old v : Bytes) (hv : old.length ≤ v.length) :
    AtomS.setString junk (some (pre ++ old, pre.length)) v = none := by
  unfold AtomS.setString strcpyAt blit
  simp only []
  rw [if_pos (by simp; omega)]
  rfl

/-- A time tag stored in the place of eight bytes is read back by the decoder of time tags, and nothing else changes. -/
theorem C99_setTimetag (junk : Nat → UInt8) (pre old post : Bytes) (t : Timetag) (h : old.length = 8) :
    ∃ new, AtomS.setTimetag junk (some (pre ++ old ++ post, pre.length)) t = some (116, pre ++ new ++ post, pre.length) ∧
      new.length = 8 ∧ Timetag.decode (pre ++ new ++ post) pre.length = some t := by
  have hl : t.encode.length = 8 := by unfold Timetag.encode; simp [st32]
  refine ⟨t.encode, ?_, hl, (C30_wire t pre post).1⟩
  unfold AtomS.setTimetag
  simp only []
  rw [blit_split pre old post t.encode (by omega)]
  rfl

example : (0 : UInt8) ∉ ([97, 98, 99] : Bytes) ∧ ([97, 98, 99] : Bytes).length < ([120, 121, 122, 0] : Bytes).length ∧
    AtomS.setString (fun _ => 0) (some ([1] ++ [120, 121, 122, 0] ++ [2], 1)) [97] = some (115, [1, 97, 0, 122, 0, 2], 1) := by decide

end Libo.Props
