import Verif.ExprFmt
import Verif.TextFmtLemmas
import Verif.TextRound
import Verif.Name
/-!
# The text of expressions (C85)

The specification has two parts: what the text of an expression is, and a reader of nested lists that knows nothing about expressions —
words, numbers and quoted strings, parentheses around lists, blanks, commas and line ends between the elements.
-/

namespace Libo.Props
open Libo.Expr Libo.Text

/-! ## Specification: the text -/

/-- The text of an atom that stands for a value. -/
def leafText (P : Printf) (a : UAtom) : Bytes := (a.val.map (textVal P 0)).getD []

mutual
/-- `(name arg arg …)`. -/
def exprText (P : Printf) : FExpr → Bytes
  | .mk n args => [40] ++ n ++ argsText P args ++ [41]
/-- An argument with a space in front of it; a list is its elements, a function is `(lambda (p, q, …) body … )`. -/
def argText (P : Printf) : FArg → Bytes
  | .atom a => 32 :: leafText P a
  | .list as => as.flatMap fun a => 32 :: leafText P a
  | .addr s => 32 :: s
  | .expr e => 32 :: exprText P e
  | .fn ps body => 32 :: ([40, 108, 97, 109, 98, 100, 97, 32, 40] ++ between [44, 32] ps ++ [41] ++ bodyText P body ++ [32, 41])
/-- The arguments one after the other. -/
def argsText (P : Printf) : List FArg → Bytes
  | [] => []
  | a :: as => argText P a ++ argsText P as
/-- The expressions of a body with a space in front of each. -/
def bodyText (P : Printf) : List FExpr → Bytes
  | [] => []
  | e :: es => 32 :: exprText P e ++ bodyText P es
end

/-- The text of a program: a line per expression, a space at its end. -/
def programText (P : Printf) (es : List FExpr) : Bytes := es.flatMap fun e => exprText P e ++ [32, 10]

/-! ## Specification: the reader -/

/-- Nested lists of words. -/
inductive Sx where
  | word (w : Bytes)
  | node (l : List Sx)

/-- What the reader sees. -/
inductive Lx where
  | lp
  | rp
  | word (w : Bytes)

/-- Where the reader is: between words, in a word, in a quoted string, after a backslash in one; with what it has read of it. -/
inductive LxAt where
  | out
  | inWord (w : Bytes)
  | inStr (w : Bytes)
  | inEsc (w : Bytes)

/-- Blank, line end, comma. -/
def isGap (c : UInt8) : Bool := c == 32 || c == 10 || c == 44

/-- The characters that end a word. -/
def isSep (c : UInt8) : Bool := isGap c || c == 40 || c == 41

/-- Cut a text into words and parentheses. -/
def lexAt : LxAt → Bytes → List Lx
  | .out, [] => []
  | .inWord w, [] => [.word w]
  | .inStr w, [] => [.word w]
  | .inEsc w, [] => [.word w]
  | .out, c :: t =>
    if isGap c then lexAt .out t
    else if c = 40 then .lp :: lexAt .out t
    else if c = 41 then .rp :: lexAt .out t
    else if c = 34 then lexAt (.inStr [c]) t
    else lexAt (.inWord [c]) t
  | .inWord w, c :: t =>
    if isGap c then .word w :: lexAt .out t
    else if c = 40 then .word w :: .lp :: lexAt .out t
    else if c = 41 then .word w :: .rp :: lexAt .out t
    else lexAt (.inWord (w ++ [c])) t
  | .inStr w, c :: t =>
    if c = 92 then lexAt (.inEsc (w ++ [c])) t
    else if c = 34 then .word (w ++ [c]) :: lexAt .out t
    else lexAt (.inStr (w ++ [c])) t
  | .inEsc w, c :: t => lexAt (.inStr (w ++ [c])) t

/-- Build the lists: `up` are the lists around the place where the reader is, `cur` is what has been read of the innermost one. -/
def nest : List (List Sx) → List Sx → List Lx → Option (List Sx)
  | [], cur, [] => some cur
  | _ :: _, _, [] => none
  | up, cur, .word w :: r => nest up (cur ++ [.word w]) r
  | up, cur, .lp :: r => nest (cur :: up) [] r
  | [], _, .rp :: _ => none
  | u :: up, cur, .rp :: r => nest up (u ++ [.node cur]) r

/-- Read a text. -/
def readSx (t : Bytes) : Option (List Sx) := nest [] [] (lexAt .out t)

mutual
/-- An expression as a nested list. -/
def exprTree (P : Printf) : FExpr → Sx
  | .mk n args => .node (.word n :: argsTree P args)
/-- The elements that an argument adds to its list. -/
def argTree (P : Printf) : FArg → List Sx
  | .atom a => [.word (leafText P a)]
  | .list as => as.map fun a => .word (leafText P a)
  | .addr s => [.word s]
  | .expr e => [exprTree P e]
  | .fn ps body => [.node (.word [108, 97, 109, 98, 100, 97] :: .node (ps.map .word) :: bodyTree P body)]
/-- The elements of all arguments. -/
def argsTree (P : Printf) : List FArg → List Sx
  | [] => []
  | a :: as => argTree P a ++ argsTree P as
/-- The expressions of a body. -/
def bodyTree (P : Printf) : List FExpr → List Sx
  | [] => []
  | e :: es => exprTree P e :: bodyTree P es
end

/-! ## Which expressions -/

/-- An atom with a value whose text the library can write, and no NUL in it. -/
def LeafOK (P : Printf) (a : UAtom) : Prop := ∃ v, a.val = some v ∧ Writable v ∧ (0 : UInt8) ∉ textVal P 0 v

mutual
/-- All atoms can be written, and every function has a parameter (the grammar knows no function without one). -/
def ExprOK (P : Printf) : FExpr → Prop
  | .mk _ args => ArgsOK P args
def ArgOK (P : Printf) : FArg → Prop
  | .atom a => LeafOK P a
  | .list as => ∀ a ∈ as, LeafOK P a
  | .addr _ => True
  | .expr e => ExprOK P e
  | .fn ps body => ps ≠ [] ∧ BodyOK P body
def ArgsOK (P : Printf) : List FArg → Prop
  | [] => True
  | a :: as => ArgOK P a ∧ ArgsOK P as
def BodyOK (P : Printf) : List FExpr → Prop
  | [] => True
  | e :: es => ExprOK P e ∧ BodyOK P es
end

/-- A word without separators that does not begin with a quote. -/
def OneWord (w : Bytes) : Prop := w ≠ [] ∧ w.head? ≠ some 34 ∧ ∀ c ∈ w, isSep c = false

/-- A plain word or a string literal. -/
def Wordy (w : Bytes) : Prop := OneWord w ∨ ∃ s, w = literal s

mutual
/-- Every name, address and atom is one word. -/
def ExprWords (P : Printf) : FExpr → Prop
  | .mk n args => OneWord n ∧ ArgsWords P args
def ArgWords (P : Printf) : FArg → Prop
  | .atom a => Wordy (leafText P a)
  | .list as => ∀ a ∈ as, Wordy (leafText P a)
  | .addr s => OneWord s
  | .expr e => ExprWords P e
  | .fn ps body => (∀ s ∈ ps, OneWord s) ∧ BodyWords P body
def ArgsWords (P : Printf) : List FArg → Prop
  | [] => True
  | a :: as => ArgWords P a ∧ ArgsWords P as
def BodyWords (P : Printf) : List FExpr → Prop
  | [] => True
  | e :: es => ExprWords P e ∧ BodyWords P es
end

/-! ## Writing -/

/-- The step writes exactly this text and a NUL behind it if they fit, and runs over the end of the block otherwise. -/
def PenWrites (f : Pen) (t : Bytes) : Prop := ∀ p b, p < b.length → f p b =
  if p + t.length + 1 ≤ b.length then
    some (p + t.length, if t = [] then b else b.take p ++ (t ++ 0 :: b.drop (p + t.length + 1)))
  else none

theorem sprintfAt_writes (t : Bytes) (h : t ≠ []) : PenWrites (sprintfAt t) t := by
  intro p b _
  simp [sprintfAt, h]

theorem penNil_writes : PenWrites (fun p b => some (p, b)) [] := by
  intro p b h
  rw [if_pos (by simp; omega)]; simp

theorem penSeq_writes {f g : Pen} {s t : Bytes} (hf : PenWrites f s) (hg : PenWrites g t) : PenWrites (penSeq f g) (s ++ t) := by
  intro p b hp
  unfold penSeq
  rw [hf p b hp]
  by_cases h1 : p + s.length + 1 ≤ b.length
  · rw [if_pos h1]
    simp only [Option.bind_some]
    by_cases hs : s = []
    · subst hs
      simp only [if_true, List.nil_append]
      rw [hg _ _ (by simp at h1 ⊢; omega)]; rfl
    · rw [if_neg hs]
      have hl : (b.take p ++ (s ++ 0 :: b.drop (p + s.length + 1))).length = b.length := by
        simp; omega
      rw [hg _ _ (by rw [hl]; omega), hl]
      by_cases h2 : p + s.length + t.length + 1 ≤ b.length
      · have h3 : p + (s ++ t).length + 1 ≤ b.length := by simp only [List.length_append]; omega
        rw [if_pos h2, if_pos h3]
        by_cases ht : t = []
        · subst ht; simp [hs]
        · have h4 : ¬ s ++ t = [] := by simp [hs]
          rw [if_neg ht, if_neg h4]
          have e1 : (b.take p ++ (s ++ 0 :: b.drop (p + s.length + 1))).take (p + s.length) = b.take p ++ s := by
            rw [← List.append_assoc, List.take_left']; simp; omega
          have e2 : (b.take p ++ (s ++ 0 :: b.drop (p + s.length + 1))).drop (p + s.length + t.length + 1) =
              b.drop (p + (s ++ t).length + 1) := by
            have : b.take p ++ (s ++ 0 :: b.drop (p + s.length + 1)) = (b.take p ++ s ++ [0]) ++ b.drop (p + s.length + 1) := by simp
            rw [this, List.drop_append, List.drop_eq_nil_of_le (by simp; omega), List.nil_append, List.drop_drop]
            congr 1; simp; omega
          rw [e1, e2]; simp [Nat.add_assoc]
      · rw [if_neg h2, if_neg (by simp; omega)]
  · rw [if_neg h1, if_neg (by simp; omega)]; rfl

/-- The last character is written over. -/
theorem penBack_writes {f : Pen} {s t : Bytes} {c : UInt8} (hf : PenWrites f (s ++ [c])) (ht : t ≠ []) :
    PenWrites (penSeq f (fun p b => sprintfAt t (p - 1) b)) (s ++ t) := by
  intro p b hp
  unfold penSeq
  have htl : 0 < t.length := List.length_pos_iff.mpr ht
  rw [hf p b hp]
  by_cases h1 : p + (s ++ [c]).length + 1 ≤ b.length
  · rw [if_pos h1, if_neg (by simp)]
    simp only [Option.bind_some, sprintfAt]
    have hl : (b.take p ++ (s ++ [c] ++ 0 :: b.drop (p + (s ++ [c]).length + 1))).length = b.length := by
      simp at h1 ⊢; omega
    rw [hl]
    simp only [List.length_append, List.length_singleton] at h1 ⊢
    by_cases h2 : p + (s.length + t.length) + 1 ≤ b.length
    · rw [if_pos (by omega), if_pos h2, if_neg (by simp [ht])]
      have e1 : (b.take p ++ (s ++ [c] ++ 0 :: b.drop (p + (s.length + 1) + 1))).take (p + (s.length + 1) - 1) = b.take p ++ s := by
        have : b.take p ++ (s ++ [c] ++ 0 :: b.drop (p + (s.length + 1) + 1)) = (b.take p ++ s) ++ (c :: 0 :: b.drop (p + (s.length + 1) + 1)) := by simp
        rw [this, List.take_left']; simp; omega
      have e2 : (b.take p ++ (s ++ [c] ++ 0 :: b.drop (p + (s.length + 1) + 1))).drop (p + (s.length + 1) - 1 + t.length + 1) =
          b.drop (p + (s.length + t.length) + 1) := by
        have : b.take p ++ (s ++ [c] ++ 0 :: b.drop (p + (s.length + 1) + 1)) = (b.take p ++ s ++ [c, 0]) ++ b.drop (p + (s.length + 1) + 1) := by simp
        rw [this, List.drop_append, List.drop_eq_nil_of_le (by simp; omega), List.nil_append, List.drop_drop]
        congr 1; simp; omega
      rw [e1, e2]
      refine congrArg some (Prod.ext (by simp; omega) (by simp))
    · rw [if_neg (by omega), if_neg h2]
  · rw [if_neg h1, if_neg (by simp at h1 ⊢; omega)]; rfl

theorem atomText_ok (P : Printf) (a : UAtom) (h : LeafOK P a) : atomText P a = some (leafText P a) := by
  obtain ⟨v, hv, hw, h0⟩ := h
  obtain ⟨hl, hp⟩ := formats_atom P a v 0 hv hw
  have e := hp (List.replicate ((textVal P 0 v).length + timesVal v + 1) 0) (((textVal P 0 v).length + timesVal v : Nat) + 1)
    (by omega) (by rw [List.length_replicate]; omega) (by rw [List.replicate_succ]; rfl)
  unfold atomText
  rw [hl]
  simp only [Option.bind_some]
  rw [e]
  simp only [Option.bind_some]
  rw [cstr_eq _ _ h0]; simp [leafText, hv]

theorem fmtAtom_writes (P : Printf) (a : UAtom) (h : LeafOK P a) : PenWrites (fmtAtom P a) (leafText P a ++ [32]) := by
  intro p b hp
  unfold fmtAtom
  rw [atomText_ok P a h, Option.bind_some]
  exact sprintfAt_writes _ (by simp) p b hp

theorem fmtAtoms_writes (P : Printf) (as : List UAtom) (h : ∀ a ∈ as, LeafOK P a) :
    PenWrites (fmtAtoms P as) (as.flatMap fun a => leafText P a ++ [32]) := by
  induction as with
  | nil => exact penNil_writes
  | cons a as ih =>
    simp only [List.flatMap_cons]
    exact penSeq_writes (fmtAtom_writes P a (h a (by simp))) (ih fun x hx => h x (by simp [hx]))

theorem fmtParams_writes (ps : List Bytes) (h : ps ≠ []) : PenWrites (fmtParams ps) (between [44, 32] ps ++ [41, 32]) := by
  induction ps with
  | nil => exact absurd rfl h
  | cons s l ih =>
    cases l with
    | nil => exact sprintfAt_writes _ (by simp)
    | cons t l =>
      have := penSeq_writes (sprintfAt_writes (s ++ [44, 32]) (by simp)) (ih (by simp))
      simpa [between, fmtParams] using this

mutual
/-- The text of an argument as the formatter writes it, the space behind it. -/
theorem fmtExpr_writes (P : Printf) : ∀ e, ExprOK P e → PenWrites (fmtExpr P e) (exprText P e ++ [32])
  | .mk n args, h => by
    obtain ⟨A, hA, hw⟩ := fmtArgs_writes P args h
    have h1 := penSeq_writes (sprintfAt_writes ([40] ++ n ++ [32]) (by simp)) hw
    have e : ([40] ++ n ++ [32] ++ A : Bytes) = ([40] ++ n ++ argsText P args) ++ [32] := by
      have : ([40] ++ n ++ [32] ++ A : Bytes) = [40] ++ n ++ (32 :: A) := by simp
      rw [this, hA]; simp
    rw [e] at h1
    have := penBack_writes h1 (t := [41, 32]) (by simp)
    simpa [exprText, fmtExpr] using this
theorem fmtArg_writes (P : Printf) : ∀ a, ArgOK P a → ∃ A, 32 :: A = argText P a ++ [32] ∧ PenWrites (fmtArg P a) A
  | .atom a, h => ⟨leafText P a ++ [32], by simp [argText], fmtAtom_writes P a h⟩
  | .list as, h => by
    refine ⟨as.flatMap fun a => leafText P a ++ [32], ?_, fmtAtoms_writes P as h⟩
    simp only [argText]
    clear h
    induction as with
    | nil => rfl
    | cons a as ih => 
      simp only [List.flatMap_cons, List.append_assoc, List.cons_append, List.nil_append]
      rw [ih]
  | .addr s, _ => ⟨s ++ [32], by simp [argText], sprintfAt_writes _ (by simp)⟩
  | .expr e, h => ⟨exprText P e ++ [32], by simp [argText], fmtExpr_writes P e h⟩
  | .fn ps body, h => by
    obtain ⟨B, hB, hw⟩ := fmtBody_writes P body h.2
    refine ⟨_, ?_, penSeq_writes (penSeq_writes (penSeq_writes (sprintfAt_writes _ (by simp)) (fmtParams_writes ps h.1)) hw)
      (sprintfAt_writes _ (by simp))⟩
    have : ([40, 108, 97, 109, 98, 100, 97, 32, 40] ++ (between [44, 32] ps ++ [41, 32]) ++ B ++ [41, 32] : Bytes) =
      [40, 108, 97, 109, 98, 100, 97, 32, 40] ++ between [44, 32] ps ++ [41] ++ (32 :: B) ++ [41, 32] := by simp
    rw [this, hB]; simp [argText]
theorem fmtArgs_writes (P : Printf) : ∀ as, ArgsOK P as → ∃ A, 32 :: A = argsText P as ++ [32] ∧ PenWrites (fmtArgs P as) A
  | [], _ => ⟨[], rfl, penNil_writes⟩
  | a :: as, h => by
    obtain ⟨A, hA, hw⟩ := fmtArg_writes P a h.1
    obtain ⟨B, hB, hv⟩ := fmtArgs_writes P as h.2
    refine ⟨A ++ B, ?_, penSeq_writes hw hv⟩
    rw [← List.cons_append, hA, List.append_assoc, List.singleton_append, hB]; simp [argsText]
theorem fmtBody_writes (P : Printf) : ∀ es, BodyOK P es → ∃ A, 32 :: A = bodyText P es ++ [32] ∧ PenWrites (fmtBody P es) A
  | [], _ => ⟨[], rfl, penNil_writes⟩
  | e :: es, h => by
    obtain ⟨B, hB, hv⟩ := fmtBody_writes P es h.2
    refine ⟨_, ?_, penSeq_writes (fmtExpr_writes P e h.1) hv⟩
    have : (32 :: (exprText P e ++ [32] ++ B) : Bytes) = 32 :: exprText P e ++ (32 :: B) := by simp
    rw [this, hB]; simp [bodyText]
end

theorem line_writes (P : Printf) (e : FExpr) (h : ExprOK P e) :
    PenWrites (penSeq (fmtExpr P e) (sprintfAt [10])) (exprText P e ++ [32, 10]) := by
  have := penSeq_writes (fmtExpr_writes P e h) (sprintfAt_writes [10] (by simp))
  simpa using this

theorem growTo_eq (b : Bytes) (n : Nat) (h : b.length ≤ n) : growTo b n = b ++ List.replicate (n - b.length) 0 := by
  simp [growTo, List.take_of_length_le h]

theorem growTo_length (b : Bytes) (n : Nat) : (growTo b n).length = n := by simp [growTo]; omega

/-- The loop from a place in the middle: what is written so far stays, and the block has at least 768 bytes from the first line on. -/
theorem formatLoop_ok (P : Printf) : ∀ (es : List FExpr), (∀ e ∈ es, ExprOK P e) → ∀ (done b : Bytes) (size : Nat),
    b.length ≤ size + 256 → 512 ≤ size → (∃ r, b = done ++ r) → (768 ≤ b.length ∨ done.length < 256) →
    done.length + (programText P es).length < 768 → es ≠ [] →
    ∃ r, formatLoop P es size done.length b = some ((done ++ programText P es).length, done ++ programText P es ++ 0 :: r) := by
  intro es
  induction es with
  | nil => intro _ _ _ _ _ _ _ _ _ h; exact absurd rfl h
  | cons e es ih =>
    intro hok done b size hb hs hd hbig hlen _
    obtain ⟨r, rfl⟩ := hd
    have hc : ∃ q, (if done.length < 256 then growTo (done ++ r) (size + 256) else done ++ r) = done ++ q ∧ 768 ≤ (done ++ q).length ∧
        (done ++ q).length ≤ size + 256 + 256 := by
      by_cases h : done.length < 256
      · rw [if_pos h, growTo_eq _ _ hb, List.append_assoc]
        exact ⟨_, rfl, by simp at hb ⊢; omega, by simp at hb ⊢; omega⟩
      · rw [if_neg h]
        exact ⟨r, rfl, by omega, by omega⟩
    obtain ⟨q, hq, hq1, hq2⟩ := hc
    simp only [formatLoop]
    rw [hq]
    simp only [programText, List.flatMap_cons] at hlen ⊢
    have hw := line_writes P e (hok e (by simp)) done.length (done ++ q) (by omega)
    rw [if_pos (by simp at hlen hq1 ⊢; omega), if_neg (by simp)] at hw
    rw [hw]
    simp only [Option.bind_some, List.take_left']
    by_cases hn : es = []
    · subst hn
      exact ⟨_, by simp [formatLoop]; rfl⟩
    · have hlen' : (done ++ (exprText P e ++ [32, 10])).length + (programText P es).length < 768 := by
        simp [programText] at hlen ⊢; omega
      obtain ⟨r', h'⟩ := ih (fun x hx => hok x (by simp [hx])) (done ++ (exprText P e ++ [32, 10]))
        (done ++ (exprText P e ++ [32, 10] ++ 0 :: (done ++ q).drop (done.length + (exprText P e ++ [32, 10]).length + 1))) (size + 256)
        (by simp at hq2 hq1 hlen ⊢; omega) (by omega) ⟨_, by simp; rfl⟩ (Or.inl (by simp at hq1 hlen ⊢; omega)) hlen' hn
      refine ⟨r', ?_⟩
      have e1 : (done ++ (exprText P e ++ [32, 10])).length = done.length + (exprText P e ++ [32, 10]).length := by simp
      rw [e1] at h'
      rw [h']; simp [programText]

/-! ## Reading -/

theorem nest_word (up : List (List Sx)) (cur : List Sx) (w : Bytes) (r : List Lx) : nest up cur (.word w :: r) = nest up (cur ++ [.word w]) r := by
  cases up <;> rfl

theorem nest_lp (up : List (List Sx)) (cur : List Sx) (r : List Lx) : nest up cur (.lp :: r) = nest (cur :: up) [] r := by
  cases up <;> rfl

/-- The text at the head is read as these elements, whatever follows. -/
def ReadsAs (t : Bytes) (l : List Sx) : Prop := ∀ up cur r, (r = [] ∨ ∃ c r', r = c :: r' ∧ isSep c = true) →
  nest up cur (lexAt .out (t ++ r)) = nest up (cur ++ l) (lexAt .out r)

theorem lex_inWord (w : Bytes) (hw : ∀ c ∈ w, isSep c = false) (x : Bytes) (r : Bytes)
    (hr : r = [] ∨ ∃ c r', r = c :: r' ∧ isSep c = true) : lexAt (.inWord x) (w ++ r) = .word (x ++ w) :: lexAt .out r := by
  induction w generalizing x with
  | nil =>
    rcases hr with rfl | ⟨c, r', rfl, hc⟩
    · simp [lexAt]
    · simp only [List.nil_append, lexAt, List.append_nil]
      by_cases h1 : isGap c = true
      · simp [h1]
      · have : c = 40 ∨ c = 41 := by simpa [isSep, h1] using hc
        rcases this with rfl | rfl <;> simp [isGap]
  | cons c w ih =>
    have hc := hw c (by simp)
    simp only [isSep, Bool.or_eq_false_iff, beq_eq_false_iff_ne] at hc
    simp only [List.cons_append, lexAt, hc.1.1, hc.1.2, hc.2, if_false, Bool.false_eq_true]
    rw [ih (fun y hy => hw y (by simp [hy]))]; simp

theorem reads_plain (w : Bytes) (h : OneWord w) : ReadsAs w [.word w] := by
  intro up cur r hr
  obtain ⟨h1, h2, h3⟩ := h
  cases w with
  | nil => exact absurd rfl h1
  | cons c w =>
    have hc := h3 c (by simp)
    simp only [isSep, Bool.or_eq_false_iff, beq_eq_false_iff_ne] at hc
    have h34 : c ≠ 34 := by simpa using h2
    simp only [List.cons_append, lexAt, hc.1.1, hc.1.2, hc.2, h34, if_false, Bool.false_eq_true]
    rw [lex_inWord w (fun y hy => h3 y (by simp [hy])) [c] r hr, nest_word]; rfl

theorem lex_inStr (s : Bytes) (x r : Bytes) :
    lexAt (.inStr x) (escape s ++ 34 :: r) = .word (x ++ escape s ++ [34]) :: lexAt .out r := by
  induction s generalizing x with
  | nil => simp [escape, lexAt]
  | cons c s ih =>
    rw [escape_cons]
    by_cases h : special c = true
    · simp only [h, if_true, List.cons_append, List.nil_append, lexAt]
      rw [ih]; simp
    · have h1 : c ≠ 34 := by rintro rfl; exact h (by decide)
      have h2 : c ≠ 92 := by rintro rfl; exact h (by decide)
      simp only [h, Bool.false_eq_true, if_false, List.cons_append, List.nil_append, lexAt, h1, h2]
      rw [ih]; simp

theorem reads_literal (s : Bytes) : ReadsAs (literal s) [.word (literal s)] := by
  intro up cur r _
  have e : literal s = 34 :: (escape s ++ [34]) := rfl
  rw [e]
  simp only [List.cons_append, List.append_assoc, List.nil_append]
  rw [lexAt, if_neg (by decide), if_neg (by decide), if_neg (by decide), if_pos rfl, lex_inStr, nest_word]
  simp

theorem reads_wordy (w : Bytes) (h : Wordy w) : ReadsAs w [.word w] := by
  rcases h with h | ⟨s, rfl⟩
  · exact reads_plain w h
  · exact reads_literal s

theorem reads_nil : ReadsAs [] [] := by intro up cur r _; simp

theorem lex_gap (c : UInt8) (h : isGap c = true) (r : Bytes) : lexAt .out (c :: r) = lexAt .out r := by simp [lexAt, h]

theorem reads_gap (c : UInt8) (h : isGap c = true) {t : Bytes} {l : List Sx} (ht : ReadsAs t l) : ReadsAs (c :: t) l := by
  intro up cur r hr
  rw [List.cons_append, lex_gap c h]; exact ht up cur r hr

/-- `t` begins with a separator or is empty. -/
def SepAt (t : Bytes) : Prop := t = [] ∨ ∃ c r, t = c :: r ∧ isSep c = true

theorem reads_append {s t : Bytes} {l m : List Sx} (hs : ReadsAs s l) (ht : ReadsAs t m) (hsep : SepAt t) : ReadsAs (s ++ t) (l ++ m) := by
  intro up cur r hr
  rw [List.append_assoc, hs, ht up _ r hr, List.append_assoc]
  rcases hsep with rfl | ⟨c, t', rfl, hc⟩
  · simpa using hr
  · exact Or.inr ⟨c, t' ++ r, rfl, hc⟩

theorem reads_list {t : Bytes} {l : List Sx} (ht : ReadsAs t l) : ReadsAs ([40] ++ t ++ [41]) [.node l] := by
  intro up cur r _
  have e : lexAt .out ([40] ++ t ++ [41] ++ r) = .lp :: lexAt .out (t ++ 41 :: r) := by
    simp [lexAt, isGap]
  rw [e, nest_lp, ht _ _ _ (Or.inr ⟨41, r, rfl, rfl⟩)]
  have e2 : lexAt .out (41 :: r) = .rp :: lexAt .out r := by simp [lexAt, isGap]
  rw [e2]; simp [nest]

theorem reads_end_gap (c : UInt8) (h : isGap c = true) {t : Bytes} {l : List Sx} (ht : ReadsAs t l) : ReadsAs (t ++ [c]) l := by
  have := reads_append ht (reads_gap c h reads_nil) (Or.inr ⟨c, [], rfl, by simp [isSep, h]⟩)
  simpa using this

theorem reads_params (ps : List Bytes) (h : ∀ s ∈ ps, OneWord s) : ReadsAs (between [44, 32] ps) (ps.map .word) := by
  induction ps with
  | nil => exact reads_nil
  | cons s l ih =>
    cases l with
    | nil => exact reads_plain s (h s (by simp))
    | cons t l =>
      have h2 := ih fun x hx => h x (by simp [hx])
      have := reads_append (reads_plain s (h s (by simp))) (reads_gap 44 rfl (reads_gap 32 rfl h2)) (Or.inr ⟨44, _, rfl, rfl⟩)
      simpa [between] using this

theorem sepAt_args (P : Printf) (as : List FArg) : SepAt (argsText P as) := by
  induction as with
  | nil => exact Or.inl rfl
  | cons a as ih =>
    cases a with
    | list l =>
      cases l with
      | nil => simpa [argsText, argText] using ih
      | cons a l => exact Or.inr ⟨32, _, by simp only [argsText, argText, List.flatMap_cons, List.cons_append]; rfl, rfl⟩
    | _ => exact Or.inr ⟨32, _, by simp only [argsText, argText, List.cons_append]; rfl, rfl⟩

theorem sepAt_body (P : Printf) (es : List FExpr) : SepAt (bodyText P es) := by
  cases es with
  | nil => exact Or.inl rfl
  | cons e es => exact Or.inr ⟨32, _, by simp only [bodyText, List.cons_append]; rfl, rfl⟩

mutual
theorem reads_expr (P : Printf) : ∀ e, ExprWords P e → ReadsAs (exprText P e) [exprTree P e]
  | .mk n args, h => by
    have := reads_list (reads_append (reads_plain n h.1) (reads_args P args h.2) (sepAt_args P args))
    simpa [exprText, exprTree] using this
theorem reads_arg (P : Printf) : ∀ a, ArgWords P a → ReadsAs (argText P a) (argTree P a)
  | .atom a, h => reads_gap 32 rfl (reads_wordy _ h)
  | .list as, h => by
    simp only [argText, argTree]
    have h' : ∀ a ∈ as, Wordy (leafText P a) := h
    clear h
    induction as with
    | nil => exact reads_nil
    | cons a as ih =>
      simp only [List.flatMap_cons, List.map_cons]
      refine reads_append (reads_gap 32 rfl (reads_wordy _ (h' a (by simp)))) (ih fun x hx => h' x (by simp [hx])) ?_
      cases as with
      | nil => exact Or.inl rfl
      | cons b bs => exact Or.inr ⟨32, _, by simp only [List.flatMap_cons, List.cons_append]; rfl, rfl⟩
  | .addr s, h => reads_gap 32 rfl (reads_plain s h)
  | .expr e, h => reads_gap 32 rfl (reads_expr P e h)
  | .fn ps body, h => by
    have h1 : ReadsAs [108, 97, 109, 98, 100, 97] [.word [108, 97, 109, 98, 100, 97]] := reads_plain _ ⟨by decide, by decide, by decide⟩
    have h2 := reads_list (reads_params ps h.1)
    have h3 := reads_end_gap 32 rfl (reads_append h2 (reads_body P body h.2) (sepAt_body P body))
    have h4 := reads_list (reads_append h1 (reads_gap 32 rfl h3) (Or.inr ⟨32, _, rfl, rfl⟩))
    have := reads_gap 32 rfl h4
    simpa [argText, argTree] using this
theorem reads_args (P : Printf) : ∀ as, ArgsWords P as → ReadsAs (argsText P as) (argsTree P as)
  | [], _ => reads_nil
  | a :: as, h => by
    simp only [argsText, argsTree]
    exact reads_append (reads_arg P a h.1) (reads_args P as h.2) (sepAt_args P as)
theorem reads_body (P : Printf) : ∀ es, BodyWords P es → ReadsAs (bodyText P es) (bodyTree P es)
  | [], _ => reads_nil
  | e :: es, h => by
    simp only [bodyText, bodyTree, List.cons_append]
    exact reads_append (l := [exprTree P e]) (reads_gap 32 rfl (reads_expr P e h.1)) (reads_body P es h.2) (sepAt_body P es)
end

/-! ## C85 -/

/-- **C85 (partial).** The text of a program is a line per expression: in parentheses the name of the function and the arguments, with
single spaces between them — numbers, strings and addresses as they are written elsewhere, lists as their elements, functions as
`(lambda (p, q) body )`.  The returned length is the length of the text, and a NUL follows it.

Full statement: this holds for every program.  Missing: texts of 768 bytes and more, see `C85_full_fails`. -/
theorem C85_format_partial (P : Printf) (es : List FExpr) (hne : es ≠ []) (hok : ∀ e ∈ es, ExprOK P e)
    (hlen : (programText P es).length < 768) :
    ∃ r, formatExprs P es = some ((programText P es).length, programText P es ++ 0 :: r) := by
  have := formatLoop_ok P es hok [] (List.replicate 512 0) 512 (by rw [List.length_replicate]; omega) (by omega) ⟨_, rfl⟩
    (Or.inr (by decide)) (by simpa using hlen) hne
  simpa only [formatExprs, List.length_nil, List.nil_append] using this

/-- **C85, the failure.** Whatever the expression is: if its line does not fit into 767 bytes, the formatter writes over the end of the
block it allocated.  The block has 768 bytes and nothing asks for the length of the text. -/
theorem C85_full_fails (P : Printf) (e : FExpr) (es : List FExpr) (hok : ExprOK P e) (hlen : 768 ≤ (exprText P e ++ [32, 10]).length) :
    formatExprs P (e :: es) = none := by
  simp only [formatExprs, formatLoop]
  rw [if_pos (by omega), line_writes P e hok _ _ (by rw [growTo_length]; omega), if_neg (by rw [growTo_length]; omega)]; rfl

/-- **C85, reading back.** The text says what the expressions are: a reader of nested lists finds their names, arguments and functions
again, strings with spaces, parentheses and quotes in them included. -/
theorem C85_read (P : Printf) (es : List FExpr) (h : ∀ e ∈ es, ExprWords P e) :
    readSx (programText P es) = some (es.map (exprTree P)) := by
  have key : ReadsAs (programText P es) (es.map (exprTree P)) := by
    induction es with
    | nil => exact reads_nil
    | cons e es ih =>
      have h1 := reads_end_gap 10 rfl (reads_end_gap 32 rfl (reads_expr P e (h e (by simp))))
      intro up cur r hr
      have h2 := ih fun x hx => h x (by simp [hx])
      have e1 : programText P (e :: es) ++ r = exprText P e ++ 32 :: 10 :: (programText P es ++ r) := by
        simp [programText]
      rw [e1, reads_expr P e (h e (by simp)) up cur _ (Or.inr ⟨32, _, rfl, rfl⟩), lex_gap 32 rfl, lex_gap 10 rfl, h2 _ _ r hr]
      simp
  have := key [] [] [] (Or.inl rfl)
  simpa [readSx, nest, lexAt] using this

/-- A program: `add(/x, "a (b\"")` and `map(lambda([a, b], {mul(a, 2)}), [1, 2])`. -/
def fmtDemo : List FExpr :=
  [.mk (n! "add") [.addr (n! "/x"), .atom (.mk 115 false (.str 0 (n! "a (b\"")))],
   .mk (n! "map") [.fn [n! "a", n! "b"] [.mk (n! "mul") [.addr (n! "a"), .atom (.mk 105 false (.bits 2))]],
     .list [.mk 105 false (.bits 1), .mk 105 false (.bits 2)]]]

/-- Integers have a text, and it is a word. -/
theorem leaf_int (P : Printf) (tag : UInt8) (al : Bool) (w : W) (h : tag = 105 ∨ tag = 104) :
    LeafOK P (.mk tag al w) ∧ Wordy (leafText P (.mk tag al w)) := by
  have key : ∃ i v, (UAtom.mk tag al w).val = some v ∧ Writable v ∧ textVal P 0 v = decI i := by
    rcases h with rfl | rfl
    · exact ⟨signedOf 32 (w.raw % M32), .num 105 (w.raw % M32), rfl, by simp [Writable], rfl⟩
    · exact ⟨signedOf 64 (w.raw % M64), .num 104 (w.raw % M64), rfl, by simp [Writable], rfl⟩
  obtain ⟨i, v, h1, h2, h3⟩ := key
  have hb := decI_bytes i
  refine ⟨⟨v, h1, h2, ?_⟩, Or.inl ?_⟩
  · rw [h3]; intro h0; exact absurd (hb 0 h0) (by decide)
  · simp only [leafText, h1, Option.map_some, Option.getD_some, h3]
    refine ⟨by unfold decI; split <;> simp [dec_ne], ?_, ?_⟩
    · intro hh
      exact absurd (hb 34 (List.mem_of_mem_head? hh)) (by decide)
    · intro c hc
      by_cases hs : isSep c = true
      · have : c = 32 ∨ c = 10 ∨ c = 44 ∨ c = 40 ∨ c = 41 := by simpa [isSep, isGap, or_assoc] using hs
        have hi := hb c hc
        rcases this with rfl | rfl | rfl | rfl | rfl <;> exact absurd hi (by decide)
      · simpa using hs

/-- Strings have a text, and it is a word for the reader. -/
theorem leaf_str (P : Printf) (al : Bool) (p : Nat) (s : Bytes) (h : (0 : UInt8) ∉ s) :
    LeafOK P (.mk 115 al (.str p s)) ∧ leafText P (.mk 115 al (.str p s)) = literal s := by
  refine ⟨⟨.str s, rfl, h, ?_⟩, rfl⟩
  simp only [textVal, literal, escape, List.mem_cons, List.mem_append, List.mem_flatMap, not_or]
  refine ⟨by decide, ?_, by decide, by simp⟩
  rintro ⟨c, hc, hm⟩
  have : c ≠ 0 := fun hh => h (hh ▸ hc)
  split at hm <;> simp at hm <;> exact this hm.symm

/-- Its text. -/
theorem fmtDemo_text (P : Printf) : programText P fmtDemo =
    n! "(add /x \"a (b\\\"\") \n(map (lambda (a, b) (mul a 2) ) 1 2) \n" := by
  simp [programText, fmtDemo, exprText, argsText, argText, bodyText, leafText, UAtom.val, textVal, textNum, signedOf, W.raw, decI, dec, literal, escape, special, between, M32]

/-- It meets the hypotheses of all theorems. -/
example (P : Printf) : fmtDemo ≠ [] ∧ (∀ e ∈ fmtDemo, ExprOK P e) ∧ (programText P fmtDemo).length < 768 ∧
    (∀ e ∈ fmtDemo, ExprWords P e) := by
  refine ⟨by simp [fmtDemo], ?_, ?_, ?_⟩
  · simp only [fmtDemo, List.mem_cons, List.not_mem_nil, or_false, forall_eq_or_imp, forall_eq, ExprOK, ArgsOK, ArgOK, BodyOK, and_true, true_and]
    exact ⟨(leaf_str P _ _ _ (by decide)).1, ⟨by simp, (leaf_int P _ _ _ (Or.inl rfl)).1⟩,
      (leaf_int P _ _ _ (Or.inl rfl)).1, (leaf_int P _ _ _ (Or.inl rfl)).1⟩
  · rw [fmtDemo_text]; decide
  · simp only [fmtDemo, List.mem_cons, List.not_mem_nil, or_false, forall_eq_or_imp, forall_eq, ExprWords, ArgsWords, ArgWords, BodyWords, and_true]
    exact ⟨⟨⟨by decide, by decide, by decide⟩, ⟨by decide, by decide, by decide⟩, Or.inr ⟨_, (leaf_str P _ _ _ (by decide)).2⟩⟩,
      ⟨by decide, by decide, by decide⟩, ⟨⟨⟨by decide, by decide, by decide⟩, ⟨by decide, by decide, by decide⟩⟩, ⟨by decide, by decide, by decide⟩, ⟨by decide, by decide, by decide⟩, (leaf_int P _ _ _ (Or.inl rfl)).2⟩,
      (leaf_int P _ _ _ (Or.inl rfl)).2, (leaf_int P _ _ _ (Or.inl rfl)).2⟩

/-- A function of 400 addresses is too long; this is so for every `n` from 254 on. -/
example (P : Printf) (n : Nat) (hn : 254 ≤ n) : ExprOK P (.mk (n! "list") (List.replicate n (.addr (n! "/x")))) ∧
    768 ≤ (exprText P (.mk (n! "list") (List.replicate n (.addr (n! "/x")))) ++ [32, 10]).length := by
  have h1 : ∀ n, ArgsOK P (List.replicate n (.addr (n! "/x"))) := by
    intro n; induction n with
    | zero => trivial
    | succ n ih => exact ⟨trivial, ih⟩
  have h2 : ∀ n, (argsText P (List.replicate n (.addr (n! "/x")))).length = 3 * n := by
    intro n; induction n with
    | zero => rfl
    | succ n ih => simp only [List.replicate_succ, argsText, argText, List.length_append, ih, List.length_cons, List.length_nil]; omega
  refine ⟨h1 n, ?_⟩
  simp only [exprText, List.length_append, List.length_cons, List.length_nil, h2]; omega

end Libo.Props
