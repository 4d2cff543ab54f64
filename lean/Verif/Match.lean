import Verif.Basic
/-!
# Model of `osc_match` (`/repo/osc_match.c`, `/repo/osc_match.h`)

Configuration modelled: `OSC_MATCH_ALLOW_STAR_IN_ADDRESS` defined (`osc_match.h` line 63),
`OSC_MATCH_RANGE_CAN_BE_NEGATIVE` defined (`osc_match.c` line 28), `OSC_MATCH_LOGSTATE` not defined,
`OSC_MATCH_BACKTRACK_LIMIT` 1000 (`osc_match.h` line 30).

Strings are given without their terminating NUL.  Every character read goes through `ch`, which is UB (`none`)
beyond the terminator.  Positions are indices, as in C.  Simplification: `sp` is allowed to point one element
below the stack (the C code forms that pointer to detect failure).
-/

namespace Libo.Match

abbrev SLASH : UInt8 := 47
abbrev STAR : UInt8 := 42
abbrev QMARK : UInt8 := 63
abbrev LBRACK : UInt8 := 91
abbrev RBRACK : UInt8 := 93
abbrev LBRACE : UInt8 := 123
abbrev RBRACE : UInt8 := 125
abbrev COMMA : UInt8 := 44
abbrev BANG : UInt8 := 33
abbrev DASH : UInt8 := 45

/-- `OSC_MATCH_BACKTRACK_LIMIT`, `osc_match.h` line 30. -/
def LIMIT : Nat := 1000

/-- Return value with the final contents of `*pattern_offset` and `*address_offset`. -/
structure Res where
  code : Nat
  po : Nat
  ao : Nat
deriving DecidableEq, Repr

/-- `s[i]` for a NUL-terminated string with contents `s`. -/
def ch (s : Bytes) (i : Nat) : Option UInt8 := (s ++ [0])[i]?

/-- `while(f(s[i])) i++;` for a test `f` that is false on NUL. -/
def scan (f : UInt8 → Bool) (s : Bytes) (i : Nat) : Option Nat :=
  if i ≤ s.length then some (i + ((s.drop i).takeWhile f).length) else none

/-- The test `c == '*'` of `osc_match.c` lines 178, 204, 307. -/
def isStar (c : UInt8) : Bool := c == STAR
/-- The test `c != '/' && c != '\0'` of `osc_match.c` lines 215, 218, 313, 321 (strings hold no NUL). -/
def inComp (c : UInt8) : Bool := c != SLASH && c != 0
/-- Closing-bracket scan, `osc_match.c` lines 253-260: stop at `]`, `/` or NUL. -/
def inBrack (c : UInt8) : Bool := c != RBRACK && c != SLASH && c != 0
/-- Closing-brace scan, `osc_match.c` lines 272-277: stop at `}`, `/` or NUL. -/
def inBrace (c : UInt8) : Bool := c != RBRACE && c != SLASH && c != 0

/-- `c <= x && x <= c2 || c >= x && x >= c2` on signed chars, `osc_match.c` line 374. -/
def inRange (c x c2 : UInt8) : Bool :=
  (c.toInt8 ≤ x.toInt8 && x.toInt8 ≤ c2.toInt8) || (x.toInt8 ≤ c.toInt8 && c2.toInt8 ≤ x.toInt8)

/-- The loop of `osc_match_range`, `osc_match.c` lines 364-392.  `val` is the C variable `val`
(`false` for a negated set), the result is the return value.  The first argument bounds the number of rounds
(one per pattern character at most). -/
def rangeLoop (pat : Bytes) (x : UInt8) (val : Bool) : Nat → Nat → Option Nat
  | 0, _ => none
  | n + 1, p => do
    let c ← ch pat p
    if c = RBRACK then
      return (if val then 0 else 1)
    else if c = 0 ∨ c = SLASH then
      return 0x100
    else
      let d ← ch pat (p + 1)
      let e ← if d = DASH then ch pat (p + 2) else pure 0
      if d = DASH ∧ e ≠ 0 ∧ e ≠ SLASH ∧ e ≠ RBRACK then
        if inRange c x e then return (if val then 1 else 0)
        else rangeLoop pat x val n (p + 3)
      else if c = x then return (if val then 1 else 0)
      else rangeLoop pat x val n (p + 1)

/-- `osc_match_range(pattern + p, address)` where `x = *address`, `osc_match.c` lines 346-393. -/
def range (pat : Bytes) (p : Nat) (x : UInt8) : Option Nat := do
  let c ← ch pat (p + 1)
  let neg := c == BANG
  let q := if neg then p + 2 else p + 1
  let d ← ch pat q
  if d = RBRACK ∧ x = RBRACK then
    return (if neg then 0 else 1)
  else
    rangeLoop pat x (!neg) (pat.length + 1) q

/-- `!strncmp(pat + i, addr + j, n)`. -/
def strncmpEq (pat addr : Bytes) : Nat → Nat → Nat → Option Bool
  | _, _, 0 => some true
  | i, j, n + 1 => do
    let c ← ch pat i
    let d ← ch addr j
    if c = d then
      if c = 0 then return true else strncmpEq pat addr (i + 1) (j + 1) n
    else return false

/-- The alternatives loop, `osc_match.c` lines 284-298: the list of pushed states in the order of pushing.
`p1` is the start of the current alternative, `p2` the running position, `aa` the address position, `rest` the
pattern position after the closing brace.  The first argument bounds the number of rounds. -/
def altPushes (pat addr : Bytes) (aa rest : Nat) : Nat → Nat → Nat → Option (List (Nat × Nat))
  | 0, _, _ => none
  | n + 1, p1, p2 => do
    let c ← ch pat p2
    if c = SLASH ∨ c = 0 then return []
    else if c = COMMA ∨ c = RBRACE then
      let eq ← strncmpEq pat addr p1 aa (p2 - p1)
      let here := if eq then [(rest, aa + (p2 - p1))] else []
      if c = RBRACE then return here
      else
        let more ← altPushes pat addr aa rest n (p2 + 1) (p2 + 1)
        return here ++ more
    else altPushes pat addr aa rest n p1 (p2 + 1)

/-- Outcome of one round of the `while(1)` loop. -/
inductive Step where
  | ret (r : Res)
  | cont (stack : List (Nat × Nat))
deriving DecidableEq, Repr

/-- `OSC_MATCH_PUSH` (lines 123-130) for a sequence of states, given in the order of pushing. -/
def pushAll (pushes rest : List (Nat × Nat)) (po ao : Nat) : Step :=
  if rest.length + pushes.length > LIMIT then .ret ⟨0x800, po, ao⟩
  else .cont (pushes.reverse ++ rest)

/-- The test of `osc_match.c` line 214: the address component at `a` is a lone star. -/
def loneStar (addr : Bytes) (a : Nat) (ac : UInt8) : Option Bool :=
  if ac = STAR ∧ 0 < a then do
    let prev ← ch addr (a - 1)
    let next ← ch addr (a + 1)
    return (prev == SLASH && (next == SLASH || next == 0))
  else some false

/-- `case '['`, `osc_match.c` lines 238-268. -/
def stepRange (pat : Bytes) (p a : Nat) (ac : UInt8) (rest : List (Nat × Nat)) : Option Step := do
  let r ← range pat p ac
  if r = 0 then return .cont rest
  else if r = 1 then
    let c1 ← ch pat (p + 1)
    let q ← scan inBrack pat (if c1 = RBRACK then p + 2 else p)
    let c ← ch pat q
    if c = RBRACK then return .cont ((q + 1, a + 1) :: rest)
    else return .ret ⟨0x100, 0, 0⟩
  else return .ret ⟨r, 0, 0⟩

/-- `case '{'`, `osc_match.c` lines 269-300. -/
def stepBrace (pat addr : Bytes) (p a : Nat) (rest : List (Nat × Nat)) : Option Step := do
  let q ← scan inBrace pat p
  let c ← ch pat q
  if c = RBRACE then
    let pushes ← altPushes pat addr a (q + 1) (pat.length + 1) (p + 1) (p + 1)
    return pushAll pushes rest p a
  else return .ret ⟨0x300, 0, 0⟩

/-- `case '*'`, `osc_match.c` lines 305-332. -/
def stepStar (pat addr : Bytes) (p a : Nat) (rest : List (Nat × Nat)) : Option Step := do
  let q ← scan isStar pat (p + 1)            -- the C variable sp->p is now q - 1
  let c ← ch pat q
  let e ← scan inComp addr a
  if c = 0 ∨ c = SLASH then
    return .cont ((q, e) :: rest)
  else
    -- pushed from e - 1 down to a
    return pushAll (((List.range (e - a)).map fun i => (q, a + i)).reverse) rest p a

/-- The `switch(p)` of `osc_match.c` lines 225-341. -/
def stepChar (pat addr : Bytes) (p a : Nat) (pc ac : UInt8) (rest : List (Nat × Nat)) : Option Step :=
  if pc = SLASH then some (.cont rest)
  else if pc = 0 then some (.cont rest)
  else if pc = QMARK then some (.cont ((p + 1, a + 1) :: rest))
  else if pc = LBRACK then stepRange pat p a ac rest
  else if pc = LBRACE then stepBrace pat addr p a rest
  else if pc = RBRACE then some (.ret ⟨0x400, 0, 0⟩)
  else if pc = RBRACK then some (.ret ⟨0x200, 0, 0⟩)
  else if pc = STAR then stepStar pat addr p a rest
  else if pc = ac then some (.cont ((p + 1, a + 1) :: rest))
  else some (.cont rest)

/-- Lines 177-192: the address is exhausted. -/
def stepEnd (pat : Bytes) (p a : Nat) (rest : List (Nat × Nat)) : Option Step := do
  let q ← scan isStar pat p
  let c ← ch pat q
  if c = 0 then return .ret ⟨3, q, a⟩
  else if c = SLASH then return .ret ⟨1, q, a⟩
  else return .cont rest

/-- Lines 193-212: the address is at a slash. -/
def stepSlash (pat : Bytes) (p a : Nat) (pc : UInt8) (rest : List (Nat × Nat)) : Option Step :=
  if pc = SLASH then some (.cont [(p + 1, a + 1)])
  else if pc = 0 then some (.ret ⟨2, p, a⟩)
  else if pc = STAR then do
    let q ← scan isStar pat p
    return .cont ((q, a) :: rest)
  else some (.cont rest)

/-- One round of the `while(1)` loop, `osc_match.c` lines 156-342.  The head of the list is the top of the
backtrack stack. -/
def step (pat addr : Bytes) : List (Nat × Nat) → Option Step
  | [] => some (.ret ⟨0, 0, 0⟩)
  | (p, a) :: rest => do
    let pc ← ch pat p
    let ac ← ch addr a
    if ac = 0 then stepEnd pat p a rest
    else if ac = SLASH then stepSlash pat p a pc rest
    else
      let ls ← loneStar addr a ac
      if ls then
        let a' ← scan inComp addr a
        let p' ← scan inComp pat p
        return .cont ((p', a') :: rest)
      else stepChar pat addr p a pc ac rest

/-- The loop with fuel; `none` is UB or exhausted fuel. -/
def run (pat addr : Bytes) : Nat → List (Nat × Nat) → Option Res
  | 0, _ => none
  | n + 1, st =>
    match step pat addr st with
    | none => none
    | some (.ret r) => some r
    | some (.cont st') => run pat addr n st'

/-- Fuel which always suffices (`Verif/MatchTotal.lean`). -/
def fuel (pat addr : Bytes) : Nat :=
  (addr.length + 1) * (pat.length + addr.length + 2) ^ pat.length + 1

/-- `osc_match`, `osc_match.c` lines 136-344. -/
def oscMatch (pat addr : Bytes) : Option Res := do
  let pc ← ch pat 0
  let ac ← ch addr 0
  if pc ≠ SLASH then return ⟨0x500, 0, 0⟩
  else if ac ≠ SLASH then return ⟨0x600, 0, 0⟩
  else run pat addr (fuel pat addr) [(0, 0)]

/-- Text helper for examples. -/
def b (s : String) : Bytes := s.toUTF8.toList

end Libo.Match
