import Verif.StrFmt
/-!
# Quoted strings (C33)

The specification is a reader of string literals that knows nothing about how they are written.
-/

namespace Libo.Props

/-! ## Specification -/

/-- Read the inside of a literal up to the closing quote: a backslash makes the next character literal. -/
def readBody : Bytes → Option (Bytes × Bytes)
  | [] => none
  | [c] => if c = '"'.toNat.toUInt8 then some ([], []) else none
  | c :: d :: t =>
    if c = '"'.toNat.toUInt8 then some ([], d :: t)
    else if c = '\\'.toNat.toUInt8 then (readBody t).map fun (s, r) => (d :: s, r)
    else (readBody (d :: t)).map fun (s, r) => (c :: s, r)

/-- Read a literal at the start of a text: its value and the rest of the text. -/
def readLiteral : Bytes → Option (Bytes × Bytes)
  | [] => none
  | c :: t => if c = '"'.toNat.toUInt8 then readBody t else none

/-- The characters that need an escape. -/
def special (c : UInt8) : Bool := c = '"'.toNat.toUInt8 || c = '\\'.toNat.toUInt8

/-- A backslash in front of every special character, nothing else. -/
def escape (s : Bytes) : Bytes := s.flatMap fun c => if special c then ['\\'.toNat.toUInt8, c] else [c]

/-- The whole literal. -/
def literal (s : Bytes) : Bytes := '"'.toNat.toUInt8 :: (escape s ++ ['"'.toNat.toUInt8])

/-! ## Lemmas -/

theorem isMeta_special (c : UInt8) : isMeta c = special c := by
  unfold isMeta metaChars special
  by_cases h : c = 34 <;> by_cases h2 : c = 92 <;> simp [isMetaLoop, h, h2]

theorem escape_cons (c : UInt8) (s : Bytes) :
    escape (c :: s) = (if special c then [92, c] else [c]) ++ escape s := by
  simp [escape]

theorem readBody_escape (s r : Bytes) : readBody (escape s ++ 34 :: r) = some (s, r) := by
  induction s with
  | nil =>
    cases r <;> simp [escape, readBody]
  | cons c s ih =>
    rw [escape_cons]
    by_cases h : special c = true
    · rw [if_pos h]
      show readBody (92 :: c :: (escape s ++ 34 :: r)) = _
      rw [readBody, if_neg (by decide), if_pos (by decide), ih]; rfl
    · rw [if_neg h]
      have h1 : c ≠ 34 := by rintro rfl; exact h (by decide)
      have h2 : c ≠ 92 := by rintro rfl; exact h (by decide)
      show readBody (c :: (escape s ++ 34 :: r)) = _
      cases ht : escape s ++ 34 :: r with
      | nil => simp at ht
      | cons d t =>
        rw [readBody, if_neg (show ¬ c = '"'.toNat.toUInt8 from h1), if_neg (show ¬ c = '\\'.toNat.toUInt8 from h2), ← ht, ih]; rfl

theorem countMetaLoop_eq (s : Bytes) : ∀ n, countMetaLoop n s + s.length = n + (escape s).length := by
  induction s with
  | nil => intro n; simp [countMetaLoop, escape]
  | cons c s ih =>
    intro n
    have h := ih (if isMeta c then n + 1 else n)
    rw [countMetaLoop, escape_cons]
    rw [isMeta_special] at h ⊢
    by_cases hc : special c = true
    · simp only [hc, if_true, List.length_append, List.length_cons, List.length_nil] at h ⊢; omega
    · simp only [hc, List.length_append, List.length_cons, List.length_nil] at h ⊢
      simp at h ⊢; omega

theorem wr8_mid (pre post : Bytes) (o x : UInt8) {i : Nat} (hi : i = pre.length) :
    wr8 (pre ++ o :: post) i x = some ((pre ++ [x]) ++ post) := by
  subst hi
  unfold wr8
  rw [if_pos (by simp)]
  simp

theorem wr8_none (buf : Bytes) {i : Nat} (x : UInt8) (h : buf.length ≤ i) : wr8 buf i x = none := by
  unfold wr8; rw [if_neg (by omega)]

theorem quoteMetaLoop_room (n : Nat) (s : Bytes) : ∀ (pre old post : Bytes), old.length = (escape s).length →
    pre.length + (escape s).length ≤ n →
    quoteMetaLoop n s (pre ++ old ++ post) pre.length = some (pre ++ escape s ++ post, pre.length + (escape s).length) := by
  induction s with
  | nil =>
    intro pre old post ho hn
    have : old = [] := by simpa [escape] using ho
    subst this
    simp [quoteMetaLoop, escape]
  | cons c s ih =>
    intro pre old post ho hn
    rw [escape_cons] at ho hn ⊢
    rw [quoteMetaLoop, isMeta_special]
    by_cases hc : special c = true
    · simp only [hc, if_true, List.length_append, List.length_cons, List.length_nil] at ho hn ⊢
      match old, ho with
      | o1 :: o2 :: old, ho =>
        have e1 : pre ++ (o1 :: o2 :: old) ++ post = pre ++ o1 :: (o2 :: old ++ post) := by simp
        rw [e1, putIf, if_pos (by omega), wr8_mid pre _ o1 92 rfl, Option.bind_some]
        have e2 : pre ++ [92] ++ (o2 :: old ++ post) = (pre ++ [92]) ++ o2 :: (old ++ post) := by simp
        rw [e2, putIf, if_pos (by omega), wr8_mid (pre ++ [92]) _ o2 c (by simp), Option.bind_some]
        have e3 : pre ++ [92] ++ [c] ++ (old ++ post) = (pre ++ [92, c]) ++ old ++ post := by simp
        have e4 : pre.length + 2 = (pre ++ [92, c]).length := by simp
        rw [e3, e4, ih (pre ++ [92, c]) old post (by simp at ho; omega) (by simp; omega)]
        simp; omega
      | [], ho => simp at ho; omega
      | [_], ho => simp at ho; omega
    · have hc' : special c = false := by simpa using hc
      simp only [hc', Bool.false_eq_true, if_false, List.length_append, List.length_cons, List.length_nil] at ho hn ⊢
      match old, ho with
      | o1 :: old, ho =>
        have e1 : pre ++ (o1 :: old) ++ post = pre ++ o1 :: (old ++ post) := by simp
        rw [e1, putIf, if_pos (by omega), wr8_mid pre _ o1 c rfl, Option.bind_some]
        have e3 : pre ++ [c] ++ (old ++ post) = (pre ++ [c]) ++ old ++ post := by simp
        have e4 : pre.length + 1 = (pre ++ [c]).length := by simp
        rw [e3, e4, ih (pre ++ [c]) old post (by simp at ho; omega) (by simp; omega)]
        simp; omega
      | [], ho => simp at ho; omega

theorem addMetaLoop_room (s : Bytes) : ∀ (pre old post : Bytes), old.length = (escape s).length →
    addMetaLoop s (pre ++ old ++ post) pre.length = some (pre ++ escape s ++ post, pre.length + (escape s).length) := by
  induction s with
  | nil =>
    intro pre old post ho
    have : old = [] := by simpa [escape] using ho
    subst this
    simp [addMetaLoop, escape]
  | cons c s ih =>
    intro pre old post ho
    rw [escape_cons] at ho ⊢
    rw [addMetaLoop, isMeta_special]
    by_cases hc : special c = true
    · simp only [hc, if_true, List.length_append, List.length_cons, List.length_nil] at ho ⊢
      match old, ho with
      | o1 :: o2 :: old, ho =>
        have e1 : pre ++ (o1 :: o2 :: old) ++ post = pre ++ o1 :: (o2 :: old ++ post) := by simp
        rw [e1, wr8_mid pre _ o1 92 rfl, Option.bind_some]
        have e2 : pre ++ [92] ++ (o2 :: old ++ post) = (pre ++ [92]) ++ o2 :: (old ++ post) := by simp
        rw [e2, wr8_mid (pre ++ [92]) _ o2 c (by simp), Option.bind_some]
        have e3 : pre ++ [92] ++ [c] ++ (old ++ post) = (pre ++ [92, c]) ++ old ++ post := by simp
        have e4 : pre.length + 2 = (pre ++ [92, c]).length := by simp
        rw [e3, e4, ih (pre ++ [92, c]) old post (by simp at ho; omega)]
        simp; omega
      | [], ho => simp at ho; omega
      | [_], ho => simp at ho; omega
    · have hc' : special c = false := by simpa using hc
      simp only [hc', Bool.false_eq_true, if_false, List.length_append, List.length_cons, List.length_nil] at ho ⊢
      match old, ho with
      | o1 :: old, ho =>
        have e1 : pre ++ (o1 :: old) ++ post = pre ++ o1 :: (old ++ post) := by simp
        rw [e1, wr8_mid pre _ o1 c rfl, Option.bind_some]
        have e3 : pre ++ [c] ++ (old ++ post) = (pre ++ [c]) ++ old ++ post := by simp
        have e4 : pre.length + 1 = (pre ++ [c]).length := by simp
        rw [e3, e4, ih (pre ++ [c]) old post (by simp at ho; omega)]
        simp; omega
      | [], ho => simp at ho; omega

theorem putIf_len {n : Nat} {buf : Bytes} (i : Nat) (x : UInt8) (h : n ≤ buf.length) :
    ∃ b, putIf n buf i x = some b ∧ b.length = buf.length := by
  unfold putIf wr8
  by_cases hi : i < n
  · rw [if_pos hi, if_pos (by omega)]; exact ⟨_, rfl, by simp⟩
  · rw [if_neg hi]; exact ⟨_, rfl, rfl⟩

theorem quoteMetaLoop_len (n : Nat) (s : Bytes) : ∀ (buf : Bytes) (i : Nat), n ≤ buf.length →
    ∃ b, quoteMetaLoop n s buf i = some (b, i + (escape s).length) ∧ b.length = buf.length := by
  induction s with
  | nil => intro buf i h; exact ⟨buf, by simp [quoteMetaLoop, escape], rfl⟩
  | cons c s ih =>
    intro buf i h
    rw [escape_cons, quoteMetaLoop, isMeta_special]
    by_cases hc : special c = true
    · rw [if_pos hc, if_pos hc]
      obtain ⟨b1, h1, l1⟩ := putIf_len i 92 h
      obtain ⟨b2, h2, l2⟩ := putIf_len (i + 1) c (show n ≤ b1.length by omega)
      obtain ⟨b3, h3, l3⟩ := ih b2 (i + 2) (by omega)
      rw [h1, Option.bind_some, h2, Option.bind_some, h3]
      exact ⟨b3, by simp; omega, by omega⟩
    · rw [if_neg hc, if_neg hc]
      obtain ⟨b1, h1, l1⟩ := putIf_len i c h
      obtain ⟨b3, h3, l3⟩ := ih b1 (i + 1) (by omega)
      rw [h1, Option.bind_some, h3]
      exact ⟨b3, by simp; omega, by omega⟩

theorem split_buf (buf : Bytes) {k : Nat} (h : k < buf.length) :
    ∃ old o post, buf = old ++ o :: post ∧ old.length = k ∧ buf.drop (k + 1) = post := by
  refine ⟨buf.take k, buf[k], buf.drop (k + 1), ?_, by simp; omega, rfl⟩
  rw [List.getElem_cons_drop, List.take_append_drop]

theorem escape_nozero (s : Bytes) (h : (0 : UInt8) ∉ s) : (0 : UInt8) ∉ escape s := by
  induction s with
  | nil => simp [escape]
  | cons c s ih =>
    rw [escape_cons]
    have h1 : (0 : UInt8) ≠ c := fun e => h (by simp [e])
    have h2 := ih (fun e => h (List.mem_cons_of_mem _ e))
    split <;> simp [h1, h2]

theorem cstr_prefix (s post : Bytes) (h : (0 : UInt8) ∉ s) : cstr (s ++ 0 :: post) 0 = some s := by
  have tw : (s ++ 0 :: post).takeWhile (· != 0) = s := by
    rw [List.takeWhile_append_of_pos]
    · simp
    · intro c hc; simp; rintro rfl; exact h hc
  unfold cstr cstrlen
  simp only [List.drop_zero, tw]
  rw [if_pos (by simp)]
  simp

/-! ## The property -/

/-- C33, reading back: a literal followed by any text is read as the string and that text, so the literal ends at its own
closing quote and no other, and removing the escapes gives the string. -/
theorem C33_unambiguous (s r : Bytes) : readLiteral (literal s ++ r) = some (s, r) := by
  have := readBody_escape s r
  simp only [literal, List.cons_append, readLiteral, if_true, List.append_assoc, List.nil_append]
  exact this

/-- Two strings with the same literal are equal. -/
theorem C33_injective (s t : Bytes) (h : literal s = literal t) : s = t := by
  have h1 := C33_unambiguous s []
  rw [h, C33_unambiguous t []] at h1
  simp at h1; exact h1.symm

/-- C33, length computed in advance: the calls without buffer return the length of the literal, and of its inside. -/
theorem C33_length (s : Bytes) : quotedStringWithQuotedMetaLen s = some (literal s).length ∧
    stringWithQuotedMetaLen s = some (escape s).length := by
  have h := countMetaLoop_eq s 0
  have e : stringWithQuotedMetaLen s = some (escape s).length := by
    unfold stringWithQuotedMetaLen countMeta
    rw [if_pos (Nat.le_refl _), List.take_length]
    simp only [Option.map_some]; congr 1; omega
  refine ⟨?_, e⟩
  unfold quotedStringWithQuotedMetaLen
  rw [e]; simp [literal]

/-- C33, escaping into a buffer with room for the text and the NUL: exactly the escaped text and the NUL are written, and
the number returned is the length of the text. -/
theorem C33_escape (s buf : Bytes) (n : Nat) (hn : (escape s).length < n) (hb : n ≤ buf.length) :
    stringWithQuotedMeta buf n s = some ((escape s).length, escape s ++ 0 :: buf.drop ((escape s).length + 1)) := by
  obtain ⟨old, o, post, hbuf, hol, hdrop⟩ := split_buf buf (show (escape s).length < buf.length by omega)
  unfold stringWithQuotedMeta
  rw [hdrop]
  have := quoteMetaLoop_room n s [] old (o :: post) hol (by simp; omega)
  simp only [List.nil_append, List.length_nil, Nat.zero_add] at this
  rw [hbuf, this]
  simp only [Option.bind_some]
  rw [if_pos hn, wr8_mid (escape s) post o 0 rfl]
  simp

/-- C33, quoting into a buffer with room for the literal and the NUL: exactly the literal and the NUL are written whatever
the temporary array contained, and the number returned is the length announced by the call without buffer.

Full statement: the same for every way of quoting a string the library offers, including
`osc_strfmt_addQuotesAndQuoteMeta`, which allocates the room itself; `C33_full_fails` shows that it does not allocate
enough. -/
theorem C33_quote_partial (s tmp buf : Bytes) (n : Nat) (hs : (0 : UInt8) ∉ s) (ht : tmp.length = n)
    (hn : (literal s).length < n) (hb : n ≤ buf.length) :
    quotedStringWithQuotedMeta tmp buf n s = some ((literal s).length, literal s ++ 0 :: buf.drop ((literal s).length + 1)) ∧
    quotedStringWithQuotedMetaLen s = some (literal s).length := by
  refine ⟨?_, (C33_length s).1⟩
  have hll : (literal s).length = (escape s).length + 2 := by simp [literal]
  unfold quotedStringWithQuotedMeta
  rw [if_neg (by omega), C33_escape s tmp n (by omega) (by omega)]
  simp only [Option.bind_some]
  rw [cstr_prefix _ _ (escape_nozero s hs), Option.bind_some]
  unfold quotedString
  have e : (34 : UInt8) :: escape s ++ [34] = literal s := rfl
  simp only [e]
  rw [if_neg (by omega), List.take_of_length_le (by omega), if_pos (by simp; omega)]
  simp; omega

theorem addQuotes_count (s rest : Bytes) : ∃ k, countMeta s.length (s ++ rest) = some k ∧ s.length + 2 + k = (literal s).length := by
  have h := countMetaLoop_eq s 0
  refine ⟨countMetaLoop 0 s, ?_, by simp [literal]; omega⟩
  unfold countMeta
  rw [if_pos (by simp), List.take_left]

theorem addQuotes_eq (junk : Nat → UInt8) (s rest out : Bytes) :
    addQuotesAndQuoteMeta junk s.length (s ++ rest) (some out) = addQuotesInto s.length (s ++ rest) (literal s).length out := by
  obtain ⟨k, h1, h2⟩ := addQuotes_count s rest
  unfold addQuotesAndQuoteMeta
  rw [h1, Option.bind_some, h2]

theorem addQuotes_eq_none (junk : Nat → UInt8) (s rest : Bytes) :
    addQuotesAndQuoteMeta junk s.length (s ++ rest) none =
      addQuotesInto s.length (s ++ rest) (literal s).length ((List.range (literal s).length).map junk) := by
  obtain ⟨k, h1, h2⟩ := addQuotes_count s rest
  unfold addQuotesAndQuoteMeta
  rw [h1, Option.bind_some, h2]

/-- C33 for the caller's own buffer in `osc_strfmt_addQuotesAndQuoteMeta`: with room for the literal and the NUL the result
is the same, and the number returned is the length of the literal. -/
theorem C33_addQuotes (junk : Nat → UInt8) (s rest out : Bytes) (hb : (literal s).length < out.length) :
    addQuotesAndQuoteMeta junk s.length (s ++ rest) (some out) =
      some ((literal s).length, literal s ++ 0 :: out.drop ((literal s).length + 1)) := by
  have hll : (literal s).length = (escape s).length + 2 := by simp [literal]
  obtain ⟨old, o, post, hout, hol, hdrop⟩ := split_buf out hb
  rw [hdrop, addQuotes_eq]
  match old, hol with
  | o1 :: old, hol =>
    have hol' : old.length = (escape s).length + 1 := by simp at hol; omega
    obtain ⟨old2, o2, post2, h2, hol2, hd2⟩ := split_buf old (show (escape s).length < old.length by omega)
    have hp2 : post2 = [] := by
      rw [← hd2]; exact List.drop_eq_nil_of_le (by omega)
    subst hp2
    have e : out = [] ++ o1 :: (old2 ++ [o2] ++ o :: post) := by rw [hout, h2]; simp
    unfold addQuotesInto
    rw [e, wr8_mid [] _ o1 34 (i := 0) (by rfl), Option.bind_some]
    have e1 : [] ++ [34] ++ (old2 ++ [o2] ++ o :: post) = [34] ++ old2 ++ (o2 :: o :: post) := by simp
    have := addMetaLoop_room s [34] old2 (o2 :: o :: post) hol2
    simp only [List.length_cons, List.length_nil, Nat.zero_add] at this
    simp only [List.take_left]
    rw [e1, this]
    simp only [Option.bind_some]
    rw [wr8_mid _ _ o2 34 (by simp; omega), Option.bind_some, wr8_mid _ _ o 0 (by simp; omega)]
    simp [literal]
  | [], hol => simp at hol; omega

/-- Without a buffer `osc_strfmt_addQuotesAndQuoteMeta` allocates one byte too few and writes the NUL outside, for every
string. -/
theorem C33_full_fails (junk : Nat → UInt8) (s rest : Bytes) :
    addQuotesAndQuoteMeta junk s.length (s ++ rest) none = none := by
  rw [addQuotes_eq_none]
  generalize hm : (List.range (literal s).length).map junk = out
  have hl : out.length = (escape s).length + 2 := by rw [← hm]; simp [literal]
  match out, hl with
  | o1 :: old, hl =>
    obtain ⟨old2, o2, post2, h2, hol2, hd2⟩ := split_buf old (show (escape s).length < old.length by simp at hl; omega)
    have hp2 : post2 = [] := by
      rw [← hd2]; exact List.drop_eq_nil_of_le (by simp at hl; omega)
    subst hp2
    unfold addQuotesInto
    have e : o1 :: old = [] ++ o1 :: (old2 ++ [o2]) := by rw [h2]; simp
    rw [e, wr8_mid [] _ o1 34 (i := 0) (by rfl), Option.bind_some]
    have e1 : [] ++ [34] ++ (old2 ++ [o2]) = [34] ++ old2 ++ [o2] := by simp
    have := addMetaLoop_room s [34] old2 [o2] hol2
    simp only [List.length_cons, List.length_nil, Nat.zero_add] at this
    simp only [List.take_left]
    rw [e1, this]
    simp only [Option.bind_some]
    rw [wr8_mid _ _ o2 34 (by simp; omega), Option.bind_some, wr8_none _ _ (by simp; omega)]
    rfl
  | [], hl => simp at hl

/-- A buffer too small for the escaped text makes the escaping write outside it. -/
theorem C33_small_buffer (s buf : Bytes) (hn : buf.length < (escape s).length) :
    stringWithQuotedMeta buf buf.length s = none := by
  obtain ⟨b, h1, h2⟩ := quoteMetaLoop_len buf.length s buf 0 (Nat.le_refl _)
  unfold stringWithQuotedMeta
  rw [h1, Option.bind_some]
  simp only [Nat.zero_add]
  rw [if_neg (by omega), if_neg (by omega), wr8_none _ _ (by omega)]
  rfl

/-! ## Examples -/

/-- `a"b\c` in a buffer of 12 bytes. -/
example : quotedStringWithQuotedMeta (List.replicate 12 7) (List.replicate 12 9) 12 [97, 34, 98, 92, 99] =
    some (9, [34, 97, 92, 34, 98, 92, 92, 99, 34, 0, 9, 9]) := by decide +kernel

example : (0 : UInt8) ∉ [97, 34, 98, 92, 99] ∧ (literal [97, 34, 98, 92, 99]).length < 12 := by decide

example : readLiteral [34, 97, 92, 34, 98, 92, 92, 99, 34, 44, 34] = some ([97, 34, 98, 92, 99], [44, 34]) := by decide

end Libo.Props
