import Verif.ExprScanWords
import Verif.ExprText
import Verif.Props.ExprSem
/-!
# C62: texts of the expression language are read token by token
-/

namespace Libo.Props
open Libo Libo.Expr Libo.Sem Libo.Syn

/-- **C62.**  A text that is written according to the rules (`Syn.Written`) is read as the tokens it is written from. -/
theorem C62_scan (E : Text.Env) {ts : List Tok} {s : Bytes} (h : Written E ts s) : tokens E s = some ts := by
  unfold Syn.tokens
  induction h with
  | nil => rfl
  | tok h1 h2 _ ih => rw [scan_spell E h1 h2, ih]; rfl
  | space h1 _ ih =>
    rw [scan_ws E _ (by rcases h1 with rfl | rfl | rfl <;> rfl), ih]
  | @comment w ts s h1 _ ih =>
    rw [show 35 :: (w ++ 10 :: s) = 35 :: w ++ 10 :: s from rfl, scan_comment E h1 (by simp), scan_ws E s rfl, ih]
  | @lastComment w h1 =>
    have := scan_comment E (s := []) h1 (by simp)
    rw [List.append_nil] at this
    rw [this]; rfl

/-- **C62.**  No text can be read in two ways. -/
theorem C62_unambiguous (E : Text.Env) {ts ts' : List Tok} {s : Bytes} (h : Written E ts s) (h' : Written E ts' s) : ts = ts' := by
  have := (C62_scan E h).symm.trans (C62_scan E h')
  simpa using this

theorem spell_blank (E : Text.Env) {t : Tok} {y : Bytes} {x : UInt8 → Bool} (h : Spell E t y x) : x 32 = false := by
  cases h with
  | symbol h =>
    have : ∀ y ∈ symbols, symbolMore y.1 32 = false := by
      intro y hy
      have : (symbols.all fun y => !symbolMore y.1 32) = true := by decide +kernel
      simpa using List.all_eq_true.mp this y hy
    exact this _ h
  | _ => rfl

/-- Tokens with a blank behind each of them. -/
def blankText : List Bytes → Bytes
  | [] => []
  | y :: ys => y ++ 32 :: blankText ys

/-- **C62.**  Every list of tokens can be written, if its tokens can: with a blank behind each of them. -/
theorem C62_blanks (E : Text.Env) : ∀ {ts : List Tok} {ys : List Bytes}, ts.length = ys.length →
    (∀ p ∈ ts.zip ys, ∃ x, Spell E p.1 p.2 x) → tokens E (blankText ys) = some ts := by
  have aux : ∀ (ts : List Tok) (ys : List Bytes), ts.length = ys.length → (∀ p ∈ ts.zip ys, ∃ x, Spell E p.1 p.2 x) → Written E ts (blankText ys) := by
    intro ts
    induction ts with
    | nil =>
      intro ys hl _
      obtain rfl : ys = [] := List.length_eq_zero_iff.mp hl.symm
      exact .nil
    | cons t ts ih =>
      intro ys hl hp
      cases ys with
      | nil => simp at hl
      | cons y ys =>
        obtain ⟨x, hx⟩ := hp (t, y) (by simp)
        refine .tok hx ?_ (.space (.inl rfl) (ih ys (by simpa using hl) fun p h => hp p (by simp [h])))
        intro c hc
        simp only [List.head?_cons, Option.some.injEq] at hc
        subst hc
        exact spell_blank E hx
  exact fun {_ _} hl hp => C62_scan E (aux _ _ hl hp)

/-- **C62 with C59.**  A text written from the tokens of a program is parsed as this program. -/
theorem C62_parse (E : Text.Env) {p : Prog} {s : Bytes} (hs : Written E p.toks s) (hp : p.ok) : (tokens E s).bind parse = some p := by
  rw [C62_scan E hs]
  exact (C59_parse_iff p.toks p).mpr ⟨rfl, hp⟩

/-- **C61 for texts (partial).**  As `C61_program_partial`, with the text itself instead of its tokens. -/
theorem C61_text_partial (E : Text.Env) (P : Text.Printf) (p : Prog) (s : Bytes) (hs : Written E p.toks s) (hp : p.ok) (hw : wfs p.items = true)
    (hdr : Bytes) (B B' : Sem.Binds) (b : Option (Int × Option Bytes)) (hb : Rep hdr B b) (r : R) (h : program p.items B = some (B', r)) :
    ∃ st code out n0, (∀ n, n0 ≤ n → evalText E P n b s = some (some (st, code, out))) ∧ Rep hdr B' st.bndl ∧ Outcome r code out := by
  obtain ⟨st, code, out, n0, h1, h2, h3⟩ := C61_program_partial E P p hp hw hdr B B' b hb r h
  refine ⟨st, code, out, n0, fun n hn => ?_, h2, h3⟩
  rw [evalText, C62_scan E hs]
  exact h1 n hn

/-- **C62: blanks cannot be left out everywhere.**  `4 / 2` is a quotient; without the blanks the text is the number 4 and the address `/2`, which
is not an expression. -/
theorem C62_division_full_fails (E : Text.Env) :
    ((tokens E (n! "4 / 2")).bind parse).isSome = true ∧ ((tokens E (n! "4/2")).bind parse).isSome = false := by
  constructor <;> rfl

/-! ### Examples -/

-- `/x += 12 # more` and a line end
example (E : Text.Env) : Written E [.addr (n! "/x"), .op .addEq, .num (lit 12)] (n! "/x+=12 # more\n") := by
  refine .tok (y := n! "/x") (.addr (by decide) (by decide)) (by decide) (.tok (y := n! "+=") (.symbol (by simp [symbols])) ?_
    (.tok (y := n! "12") (.int (by decide) (by decide) (by decide) (by decide) rfl) (by decide) (.space (.inl rfl) (.comment (w := n! " more") (by decide) .nil))))
  decide

-- a word, a string with a quote, and a quoted expression
example (E : Text.Env) : tokens E (n! "map( quote( f(1) ), \"a\\\"b\")") =
    some [.str (n! "map"), .lpar, .quoted (n! " f(1) "), .comma, .str (n! "a\"b"), .rpar] := rfl

-- the text of the sample program of C61
def sampleBytes : Bytes := n! "/x = 1 + 2 * 3, /y = [/x, 4], /x += 1, /y[[0]] < /x ? reverse(/y) : 0"

example (E : Text.Env) : tokens E sampleBytes = some sampleText.toks := rfl

end Libo.Props
