import Verif.ErrorReport
import Verif.TextRound
/-!
# C101: what a handler of errors is given

Independent specification: a report is the name of the file, the name of the function, the number of the line, the description of the code and the
text of the caller with its values filled in, of which the first 4095 bytes are kept.  The text of the caller is a list of segments.
-/

namespace Libo.Props
open Libo Libo.Err

/-- A part of the text of a caller: literal bytes, a percent sign, a number or a string to be filled in. -/
inductive Seg where
  | lit (s : Bytes)
  | percent
  | num (n : Int)
  | str (s : Bytes)

/-- How the part is written in the format. -/
def Seg.src : Seg → Bytes
  | .lit s => s
  | .percent => n! "%%"
  | .num _ => n! "%d"
  | .str _ => n! "%s"

/-- How the part reads in the report. -/
def Seg.out : Seg → Bytes
  | .lit s => s
  | .percent => n! "%"
  | .num n => Text.decI n
  | .str s => s

/-- The value the caller passes for the part. -/
def Seg.args : Seg → List Arg
  | .num n => [.int n]
  | .str s => [.str s]
  | _ => []

/-- Literal parts have no percent signs. -/
def Seg.Plain : Seg → Prop
  | .lit s => 37 ∉ s
  | _ => True

/-- What a report says before the text of the caller. -/
def reportHead (file func : Option Bytes) (line : Int) (code : Nat) : Bytes :=
  (file.map (· ++ n! ":\n")).getD [] ++ (func.map (· ++ n! "(): ")).getD [] ++ (if 0 < line then Text.decI line ++ n! ": " else []) ++
    (if code = 0 then [] else errorString code ++ n! ": \n")

theorem format_lit (args : List Arg) (s r : Bytes) (h : 37 ∉ s) : format args (s ++ r) = (format args r).map (s ++ ·) := by
  induction s with
  | nil => simp
  | cons c s ih =>
    simp only [List.mem_cons, not_or] at h
    rw [List.cons_append, format, ih h.2]
    · cases format args r <;> simp
    all_goals (intros; simp_all)

theorem format_plain (args : List Arg) (s : Bytes) (h : 37 ∉ s) : format args s = some s := by
  have := format_lit args s [] h
  simpa [format] using this

theorem format_segs (l : List Seg) (extra : List Arg) (h : ∀ x ∈ l, x.Plain) :
    format (l.flatMap Seg.args ++ extra) (l.flatMap Seg.src) = some (l.flatMap Seg.out) := by
  induction l with
  | nil => simp [format]
  | cons x l ih =>
    have ih := ih fun y hy => h y (List.mem_cons_of_mem _ hy)
    have hx := h x List.mem_cons_self
    cases x with
    | lit s => simp only [List.flatMap_cons, Seg.src, Seg.out, Seg.args, List.nil_append]; rw [format_lit _ _ _ hx, ih]; rfl
    | percent => simp only [List.flatMap_cons, Seg.src, Seg.out, Seg.args, List.nil_append, List.cons_append]; rw [format, ih]; rfl
    | num n => simp only [List.flatMap_cons, Seg.src, Seg.out, Seg.args, List.nil_append, List.cons_append]; rw [format, ih]; rfl
    | str s => simp only [List.flatMap_cons, Seg.src, Seg.out, Seg.args, List.nil_append, List.cons_append]; rw [format, ih]; rfl

theorem put_all (ps : List Bytes) (b : Bytes) (h : b.length + ps.flatten.length ≤ 4095) :
    ps.foldlM put (b, b.length) = some (b ++ ps.flatten, (b ++ ps.flatten).length) := by
  induction ps generalizing b with
  | nil => simp
  | cons p ps ih =>
    simp only [List.flatten_cons, List.length_append] at h
    have hp : put (b, b.length) p = some (b ++ p, (b ++ p).length) := by
      simp only [put]
      rw [if_neg (by omega), List.take_of_length_le (by omega), List.length_append]
    rw [List.foldlM_cons, hp]
    have := ih (b ++ p) (by rw [List.length_append]; omega)
    simpa using this

theorem pieces_some (file func : Option Bytes) (line : Int) (code : Nat) (more : Bytes) :
    ∃ ps, pieces file func line code (some more) = ps ++ [more] ∧ ps.flatten = reportHead file func line code := by
  refine ⟨_, rfl, ?_⟩
  cases file <;> cases func <;> by_cases hl : line > 0 <;> by_cases hc : code = 0 <;> simp [reportHead, hl, hc]

/-- What is put together. -/
theorem put_pieces (file func : Option Bytes) (line : Int) (code : Nat) (more : Bytes) (hh : (reportHead file func line code).length ≤ 4095) :
    ∃ n, (pieces file func line code (some more)).foldlM put ([], 0) = some ((reportHead file func line code ++ more).take 4095, n) := by
  obtain ⟨ps, h1, h2⟩ := pieces_some file func line code more
  have := put_all ps [] (by simpa [h2] using hh)
  rw [h1, List.foldlM_append, show (([] : Bytes), 0) = (([] : Bytes), ([] : Bytes).length) from rfl, this, h2]
  refine ⟨(reportHead file func line code).length + more.length, ?_⟩
  simp only [List.nil_append, List.foldlM_cons, List.foldlM_nil, Option.bind_eq_bind, Option.bind_some, put]
  rw [if_neg (by omega)]
  simp only [Option.pure_def, Option.bind_some]
  rw [List.take_append, List.take_of_length_le hh, show 4096 - (reportHead file func line code).length - 1 = 4095 - (reportHead file func line code).length by omega]

theorem handler_some (h : Bytes → Int) (file func : Option Bytes) (line : Int) (code : Nat) (more : Bytes) (args : List Arg)
    (hh : (reportHead file func line code).length ≤ 4095) :
    errorHandler (some h) file func line code (some more) args =
      (format args ((reportHead file func line code ++ more).take 4095)).map fun m => (some (m.take 4095), h (m.take 4095)) := by
  obtain ⟨n, hn⟩ := put_pieces file func line code more hh
  obtain ⟨ps, h1, _⟩ := pieces_some file func line code more
  simp only [errorHandler]
  rw [if_neg (by simp [h1]), hn]
  rfl

/-- The names of file and function have no percent signs. -/
def NoPercent (s : Option Bytes) : Prop := ∀ t ∈ s, 37 ∉ t

theorem decI_no_percent (n : Int) : 37 ∉ Text.decI n := by
  intro hm
  have := Text.decI_bytes n 37 hm
  revert this; decide

/-- The codes that have descriptions. -/
def knownCodes : List Nat := [0, 0x1, 0x2, 0x4, 0x8, 0x10, 0x11, 0x12, 0x14, 0x18, 0x20, 0x21, 0x22, 0x24, 0x100, 0x101, 0x102, 0x104, 0x108, 0x1000]

theorem errorString_known (code : Nat) : (code ∈ knownCodes) ∨ errorString code = n! "unrecognized error code" := by
  by_cases h : code ∈ knownCodes
  · exact .inl h
  · right
    simp only [knownCodes, List.mem_cons, List.not_mem_nil, or_false, not_or] at h
    unfold errorString
    split <;> first | rfl | omega

theorem errorString_all (P : Bytes → Prop) [DecidablePred P] (hk : ∀ c ∈ knownCodes, P (errorString c)) (hu : P (n! "unrecognized error code")) (code : Nat) :
    P (errorString code) := by
  rcases errorString_known code with h | h
  · exact hk code h
  · rw [h]; exact hu

theorem errorString_no_percent (code : Nat) : 37 ∉ errorString code :=
  errorString_all (fun s => 37 ∉ s) (by decide +kernel) (by decide +kernel) code

theorem errorString_length (code : Nat) : (errorString code).length ≤ 76 :=
  errorString_all (fun s => s.length ≤ 76) (by decide +kernel) (by decide +kernel) code

theorem head_no_percent (file func : Option Bytes) (line : Int) (code : Nat) (h1 : NoPercent file) (h2 : NoPercent func) :
    37 ∉ reportHead file func line code := by
  have e := errorString_no_percent code
  have d := decI_no_percent line
  have f1 : 37 ∉ (file.map (· ++ n! ":\n")).getD [] := by
    cases file with
    | none => simp
    | some s => simpa using h1 s rfl
  have f2 : 37 ∉ (func.map (· ++ n! "(): ")).getD [] := by
    cases func with
    | none => simp
    | some s => simpa using h2 s rfl
  simp only [reportHead, List.mem_append, not_or]
  refine ⟨⟨⟨f1, f2⟩, ?_⟩, ?_⟩
  · split <;> simp [d]
  · split <;> simp [e]

/-! ## Descriptions -/

/-- Every code has a description, a text that is not empty; a code gets the description for unrecognised codes exactly when it is none of the library's;
and two codes of the library have the same description only if they are the two codes for functions that are not found. -/
theorem C101_descriptions (code code' : Nat) :
    errorString code ≠ [] ∧ (0 : UInt8) ∉ errorString code ∧
    (errorString code = n! "unrecognized error code" ↔ code ∉ knownCodes) ∧
    (code ∈ knownCodes → code' ∈ knownCodes → errorString code = errorString code' → code = code' ∨ (code ∈ [0x100, 0x101] ∧ code' ∈ [0x100, 0x101])) := by
  refine ⟨errorString_all (fun s => s ≠ []) (by decide +kernel) (by decide +kernel) code,
    errorString_all (fun s => (0 : UInt8) ∉ s) (by decide +kernel) (by decide +kernel) code, ⟨?_, ?_⟩, ?_⟩
  · intro h hk
    have : ∀ c ∈ knownCodes, errorString c ≠ n! "unrecognized error code" := by decide +kernel
    exact this code hk h
  · intro h
    exact (errorString_known code).resolve_left h
  · have : ∀ c ∈ knownCodes, ∀ c' ∈ knownCodes, errorString c = errorString c' → c = c' ∨ (c ∈ [0x100, 0x101] ∧ c' ∈ [0x100, 0x101]) := by decide +kernel
    exact fun h1 h2 h3 => this code h1 code' h2 h3

/-- The description of a missing identifier ends behind the identifier: its closing parenthesis is lost with all that follows. -/
theorem C101_identifier_fails : ¬ (∀ code, (40 : UInt8) ∈ errorString code → (41 : UInt8) ∈ errorString code) := by
  intro h
  exact absurd (h 2 (by decide +kernel)) (by decide +kernel)

/-- The same for every other code. -/
theorem C101_identifier_partial (code : Nat) (hc : code ≠ 2) (h : (40 : UInt8) ∈ errorString code) : (41 : UInt8) ∈ errorString code := by
  rcases errorString_known code with hk | hk
  · have : ∀ c ∈ knownCodes, c ≠ 2 → (40 : UInt8) ∈ errorString c → (41 : UInt8) ∈ errorString c := by decide +kernel
    exact this code hk hc h
  · rw [hk] at h; exact absurd h (by decide +kernel)

/-! ## Reports -/

/-- The full claim: whatever the caller passes, the handler is given the first 4095 bytes of the report, once, and its result is returned. -/
def ReportsFull : Prop :=
  ∀ (h : Bytes → Int) (file func : Option Bytes) (line : Int) (code : Nat) (l : List Seg) (extra : List Arg), (∀ x ∈ l, x.Plain) →
    let m := (reportHead file func line code ++ l.flatMap Seg.out).take 4095
    errorHandler (some h) file func line code (some (l.flatMap Seg.src)) (l.flatMap Seg.args ++ extra) = some (some m, h m)

/-- It holds if the names of file and function have no percent signs and the text that is put together fits.  Missing: names with percent signs, and
longer texts of callers with conversions. -/
theorem C101_report_partial (h : Bytes → Int) (file func : Option Bytes) (line : Int) (code : Nat) (l : List Seg) (extra : List Arg)
    (hp : ∀ x ∈ l, x.Plain) (h1 : NoPercent file) (h2 : NoPercent func)
    (hfit : (reportHead file func line code).length + (l.flatMap Seg.src).length ≤ 4095) :
    let m := (reportHead file func line code ++ l.flatMap Seg.out).take 4095
    errorHandler (some h) file func line code (some (l.flatMap Seg.src)) (l.flatMap Seg.args ++ extra) = some (some m, h m) := by
  intro m
  rw [handler_some _ _ _ _ _ _ _ (by omega), List.take_of_length_le (by rw [List.length_append]; omega),
    format_lit _ _ _ (head_no_percent _ _ _ _ h1 h2), format_segs _ _ hp]
  rfl

/-- Texts of callers without conversions may be of any length. -/
theorem C101_plain (h : Bytes → Int) (file func : Option Bytes) (line : Int) (code : Nat) (more : Bytes) (args : List Arg)
    (hp : 37 ∉ more) (h1 : NoPercent file) (h2 : NoPercent func) (hfit : (reportHead file func line code).length ≤ 4095) :
    let m := (reportHead file func line code ++ more).take 4095
    errorHandler (some h) file func line code (some more) args = some (some m, h m) := by
  intro m
  have hm : (37 : UInt8) ∉ m := fun hc => by
    have := List.mem_of_mem_take hc
    rcases List.mem_append.mp this with h' | h'
    · exact head_no_percent _ _ _ _ h1 h2 h'
    · exact hp h'
  rw [handler_some _ _ _ _ _ _ _ hfit, format_plain _ _ hm]
  simp only [Option.map_some]
  rw [List.take_take, Nat.min_self]

/-- Without a handler nothing is reported, and the result is 0. -/
theorem C101_no_handler (file func : Option Bytes) (line : Int) (code : Nat) (more : Option Bytes) (args : List Arg) :
    errorHandler none file func line code more args = some (none, 0) := rfl

/-- The names of files are part of the format. -/
theorem C101_report_full_fails : ¬ ReportsFull := by
  intro h
  have := h (fun _ => 0) (some (n! "100%s.c")) none 0 1 [] [] (by simp)
  simp only [List.flatMap_nil, List.append_nil] at this
  rw [handler_some _ _ _ _ _ _ _ (by decide +kernel)] at this
  have e : format [] (List.take 4095 (reportHead (some (n! "100%s.c")) none 0 1 ++ [])) = none := by decide +kernel
  rw [e] at this
  exact absurd this (by simp)

/-- Nothing to say: what the handler is given is not determined. -/
theorem C101_nothing_fails (h : Bytes → Int) (args : List Arg) : errorHandler (some h) none none 0 0 none args = none := rfl

/-- The name of a file of 4096 bytes or more makes the description of the code be stored outside of the buffer. -/
theorem C101_long_fails (h : Bytes → Int) (file : Bytes) (line : Int) (code : Nat) (more : Option Bytes) (args : List Arg) (hf : 4096 ≤ file.length) (hl : line ≤ 0) (hc : code ≠ 0) :
    errorHandler (some h) (some file) none line code more args = none := by
  have e : ∃ r, pieces (some file) none line code more = (file ++ n! ":\n") :: (errorString code ++ n! ": \n") :: r := by
    refine ⟨match more with | some s => [s] | none => [], ?_⟩
    simp only [pieces]
    rw [if_neg (by omega), if_pos hc]
    rfl
  obtain ⟨r, hr⟩ := e
  simp only [errorHandler, hr, List.isEmpty_cons, List.foldlM_cons, Option.bind_eq_bind]
  simp only [put, List.length_append, List.length_cons, List.length_nil]
  rw [if_neg (by simp), if_neg (by simp)]
  simp only [Option.bind_some]
  rw [if_pos (by omega)]
  rfl

/-! ## Errors in expressions -/

/-- What a report about an expression says: the description, the text of the expression broken before and behind the place of the error, with an arrow
before it, and the text of the error. -/
def exprReport (file before at_ behind more : Bytes) (code : Nat) : Bytes :=
  file ++ n! ":\n" ++ (if code = 0 then [] else errorString code ++ n! ": \n") ++ before ++ n! "\n-->                " ++ at_ ++ n! "\n" ++ behind ++ n! "\n\n" ++
    (if more = [] then [] else more.take 255 ++ n! "\n")

/-- The full claim: for every text with an error at some place, the handler is given the report. -/
def ExprReportsFull : Prop :=
  ∀ (h : Bytes → Int) (file : Bytes) (junk : UInt8) (before at_ behind : Bytes) (code : Nat) (l : List Seg),
    (∀ x ∈ l, x.Plain) → 37 ∉ file → file.length ≤ 4000 →
    let m := (exprReport file before at_ behind (l.flatMap Seg.out) code).take 4095
    exprError (some h) file junk before.length (before.length + at_.length) (before ++ at_ ++ behind) code (l.flatMap Seg.src) (l.flatMap Seg.args) = some (some m, h m)

/-- It holds if something follows the place of the error and there are no percent signs in the expression and in the text of the error. -/
theorem C101_expr_partial (h : Bytes → Int) (file : Bytes) (junk : UInt8) (before at_ behind : Bytes) (code : Nat) (l : List Seg)
    (hp : ∀ x ∈ l, x.Plain) (hf : 37 ∉ file) (hlen : file.length ≤ 4000) (hb : behind ≠ [])
    (ht : 37 ∉ before ++ at_ ++ behind) (ho : 37 ∉ l.flatMap Seg.out) :
    let m := (exprReport file before at_ behind (l.flatMap Seg.out) code).take 4095
    exprError (some h) file junk before.length (before.length + at_.length) (before ++ at_ ++ behind) code (l.flatMap Seg.src) (l.flatMap Seg.args) = some (some m, h m) := by
  intro m
  have hbl : 0 < behind.length := List.length_pos_iff.mpr hb
  have hloc : formatLocation junk before.length (before.length + at_.length) (before ++ at_ ++ behind) =
      some (before ++ n! "\n-->                " ++ at_ ++ n! "\n" ++ behind ++ n! "\n") := by
    unfold formatLocation
    rw [if_neg (by simp only [List.length_append]; omega), if_neg (by omega)]
    congr 1
    have e1 : (before ++ at_ ++ behind).take before.length = before := by simp
    have e2 : ((before ++ at_ ++ behind).drop before.length).take (before.length + at_.length - before.length) = at_ := by simp
    have e3 : (before ++ at_ ++ behind).drop (before.length + at_.length) = behind := by
      rw [← List.length_append, List.drop_left]
    rw [e1, e2, e3]
  have hfmt := format_segs l [] hp
  rw [List.append_nil] at hfmt
  unfold exprError
  rw [hloc, hfmt]
  simp only [Option.bind_some]
  simp only [List.mem_append, not_or] at ht
  rw [if_pos (by left; simp), if_pos (by simp)]
  have hhead : (reportHead (some file) none (-1) code).length ≤ 4095 := by
    have := errorString_length code
    simp only [reportHead, Option.map_some, Option.getD_some, Option.map_none, Option.getD_none, List.length_append, List.append_nil]
    split <;> split <;> simp <;> omega
  rw [C101_plain h (some file) none (-1) code _ [] ?_ ?_ ?_ hhead]
  · have : reportHead (some file) none (-1) code ++ (before ++ n! "\n-->                " ++ at_ ++ n! "\n" ++ behind ++ n! "\n" ++ n! "\n" ++
        (if (l.flatMap Seg.out).length ≠ 0 then (l.flatMap Seg.out).take 255 ++ n! "\n" else [])) = exprReport file before at_ behind (l.flatMap Seg.out) code := by
      simp only [reportHead, exprReport, Option.map_some, Option.getD_some, Option.map_none, Option.getD_none, List.append_nil]
      generalize l.flatMap Seg.out = o
      cases o <;> simp
    rw [this]
  · have ho' : (37 : UInt8) ∉ (l.flatMap Seg.out).take 255 := fun hc => ho (List.mem_of_mem_take hc)
    simp only [List.mem_append, not_or]
    refine ⟨⟨⟨⟨⟨⟨⟨ht.1.1, ?_⟩, ht.1.2⟩, ?_⟩, ht.2⟩, ?_⟩, ?_⟩, ?_⟩
    any_goals decide
    split
    · simp [ho']
    · simp
  · intro t e; cases e; exact hf
  · intro t e; cases e

/-- A function that is not known: the report names it. -/
theorem C101_unknown_function_partial (h : Bytes → Int) (file : Bytes) (junk : UInt8) (before name behind : Bytes)
    (hf : 37 ∉ file) (hlen : file.length ≤ 4000) (hb : behind ≠ []) (ht : 37 ∉ before ++ name ++ behind) :
    let m := (exprReport file before name behind (n! "unknown function \"" ++ name ++ n! "\"") 0x21).take 4095
    unknownFunction (some h) file junk before.length (before.length + name.length) (before ++ name ++ behind) name = some (some m, h m) := by
  have hn : 37 ∉ name := fun hc => ht (by simp [hc])
  have := C101_expr_partial h file junk before name behind 0x21 [.lit (n! "unknown function \""), .str name, .lit (n! "\"")]
    (by intro x hx; simp only [List.mem_cons, List.not_mem_nil, or_false] at hx; rcases hx with rfl | rfl | rfl <;> simp [Seg.Plain]) hf hlen hb ht
    (by simp [Seg.out, hn])
  simpa [Seg.out, Seg.src, Seg.args, unknownFunction, List.flatMap_cons] using this

/-- A target that cannot be assigned to: the report names it. -/
theorem C101_target_partial (h : Bytes → Int) (file : Bytes) (junk : UInt8) (before at_ behind lval : Bytes)
    (hf : 37 ∉ file) (hlen : file.length ≤ 4000) (hb : behind ≠ []) (ht : 37 ∉ before ++ at_ ++ behind) (hn : 37 ∉ lval) :
    let m := (exprReport file before at_ behind (n! "\"" ++ lval ++ n! "\" is not a valid target for assignment (invalid lvalue)\n") 0x21).take 4095
    invalidLval (some h) file junk before.length (before.length + at_.length) (before ++ at_ ++ behind) lval = some (some m, h m) := by
  have := C101_expr_partial h file junk before at_ behind 0x21 [.lit (n! "\""), .str lval, .lit (n! "\" is not a valid target for assignment (invalid lvalue)\n")]
    (by intro x hx; simp only [List.mem_cons, List.not_mem_nil, or_false] at hx; rcases hx with rfl | rfl | rfl <;> simp [Seg.Plain]) hf hlen hb ht
    (by simp [Seg.out, hn])
  simpa [Seg.out, Seg.src, Seg.args, invalidLval, List.flatMap_cons] using this

/-- A syntax error. -/
theorem C101_syntax_partial (h : Bytes → Int) (file : Bytes) (junk : UInt8) (before at_ behind : Bytes)
    (hf : 37 ∉ file) (hlen : file.length ≤ 4000) (hb : behind ≠ []) (ht : 37 ∉ before ++ at_ ++ behind) :
    let m := (exprReport file before at_ behind (n! "syntax error") 0x21).take 4095
    syntaxError (some h) file junk before.length (before.length + at_.length) (before ++ at_ ++ behind) = some (some m, h m) := by
  have := C101_expr_partial h file junk before at_ behind 0x21 [.lit (n! "syntax error")]
    (by intro x hx; simp only [List.mem_cons, List.not_mem_nil, or_false] at hx; rcases hx with rfl; simp [Seg.Plain]) hf hlen hb ht (by simp [Seg.out])
  simpa [Seg.out, Seg.src, Seg.args, syntaxError, List.flatMap_cons] using this

/-- Errors at the end of the text: the text of the expression is copied without its terminator, and unless the memory happens to hold a zero there,
its end is looked for outside. -/
theorem C101_end_fails (h : Bytes → Int) (file : Bytes) (junk : UInt8) (before at_ : Bytes) (code : Nat) (fmt : Bytes) (args : List Arg) (hj : junk ≠ 0) :
    exprError (some h) file junk before.length (before.length + at_.length) (before ++ at_) code fmt args = none := by
  simp [exprError, formatLocation, hj]

/-- Even if it does, the place is not marked. -/
theorem C101_end_zero_partial (before at_ : Bytes) : formatLocation 0 before.length (before.length + at_.length) (before ++ at_) = some (before ++ at_) := by
  simp [formatLocation]

/-- The text of the expression is used as a format: `f(3) %s` with an unknown function has a conversion without argument. -/
theorem C101_expr_full_fails : ¬ ExprReportsFull := by
  intro h
  have := h (fun _ => 0) (n! "p.y") 0 [] (n! "f") (n! "(3) %s") 0x21 [.lit (n! "x")] (by simp [Seg.Plain]) (by decide) (by decide)
  have e : exprError (some fun _ => 0) (n! "p.y") 0 ([] : Bytes).length (([] : Bytes).length + (n! "f").length) ([] ++ n! "f" ++ n! "(3) %s") 0x21 (n! "x") [] = none := by
    decide +kernel
  simp only [List.flatMap_cons, List.flatMap_nil, Seg.src, Seg.args, List.append_nil] at this
  rw [e] at this
  exact absurd this (by simp)

/-- A report: `foo(1) + 2`. -/
example : unknownFunction (some fun m => m.length) (n! "p.y") 7 0 3 (n! "foo(1) + 2") (n! "foo") =
    some (some (n! "p.y:\nerror parsing expression: \n\n-->                foo\n(1) + 2\n\nunknown function \"foo\"\n"), 88) := by decide +kernel

/-- A report with values: `error in /a: 3 of 4`. -/
example : errorHandler (some fun m => m.length) none none (-1) 0x18 (some (n! "in %s: %d of %d, 50%%")) [.str (n! "/a"), .int 3, .int 4] =
    some (some (n! "malformed message: \nin /a: 3 of 4, 50%"), 38) := by decide +kernel

end Libo.Props
