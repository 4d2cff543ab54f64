import Verif.ExprMisc
import Verif.ExprCastLemmas
import Verif.ExprBndl
import Verif.Props.Match
import Verif.Props.RoundTrip
import Verif.Props.IsoText
import Verif.Props.TimeSeconds
/-!
# C73 to C75: bundles from lists, sorting addresses by a pattern, and strings and numbers as time tags

`bundle`, `match`, `readstring`, `strtotime` and `floattotime` of the expression language.
-/

namespace Libo.Props
open Libo Libo.Expr

/-! ## `bundle` (C73) -/

/-- The address of a new message: a text that begins with a slash. -/
def addressOf (n : Bytes) : Option Bytes := if n.head? = some 47 then some n else none

/-- The messages that arguments describe: addresses and lists of values take turns, and a last address has no values.  Only the first value
of an address is looked at. -/
inductive Described : List Ar → List VMsg → Prop
  | nil : Described [] []
  | last (a : Ar) (n : Bytes) (us : List Val) : Holds a (.str n :: us) → Described [a] [.mk (addressOf n) []]
  | pair (a b : Ar) (rest : List Ar) (n : Bytes) (us vs : List Val) (ms : List VMsg) : Holds a (.str n :: us) → Holds b vs →
      (∀ v ∈ vs, Copyable v) → Described rest ms → Described (a :: b :: rest) (.mk (addressOf n) vs :: ms)

theorem strPtrOf_str {a : Ar} {n : Bytes} {us : List Val} (h : Holds a (.str n :: us)) : strPtrOf (at? a 0) = some (some n) := by
  obtain ⟨x, h1, h2⟩ := holds_at h (i := 0) rfl
  obtain ⟨al, p, rfl⟩ := val_str h2
  rw [h1]
  rfl

theorem bundleLoop_ok {argv : List Ar} {ms : List VMsg} (h : Described argv ms) : ∃ us, bundleLoop argv = some (some us) ∧ msgsVal us = some ms := by
  induction h with
  | nil => exact ⟨[], rfl, rfl⟩
  | last a n us ha =>
    refine ⟨[.mk (newAddress n) []], ?_, rfl⟩
    simp [bundleLoop, strPtrOf_str ha]
  | pair a b rest n us vs ms ha hb hc _ ih =>
    obtain ⟨us', h1, h2⟩ := ih
    obtain ⟨l, h3, h4⟩ := mapM_copyAtom _ vs hb hc
    refine ⟨.mk (newAddress n) l :: us', ?_, ?_⟩
    · simp [bundleLoop, strPtrOf_str ha, h3, h1]
    · simp [msgsVal, msgVal, h4, h2, addressOf, newAddress]

theorem bndl_holds {us : List UMsg} {ms : List VMsg} (h : msgsVal us = some ms) : Holds (some [UAtom.fresh.setBndlU newPtr us]) [.bndl ms] := by
  simp [Holds, argsVal, UAtom.setBndlU, UAtom.val, h]

/-- **C73**: `bundle` with addresses and lists in turn is the bundle of these messages, in this order; without arguments it is the empty
bundle. -/
theorem C73_bundle (argv : List Ar) (ms : List VMsg) (h : Described argv ms) (hl : argv.length ≠ 1) :
    ∃ out, bundleFn argv = some (0, some out) ∧ Holds (some out) [.bndl ms] := by
  obtain ⟨us, h1, h2⟩ := bundleLoop_ok h
  refine ⟨_, ?_, bndl_holds h2⟩
  unfold bundleFn
  split
  · simp at hl
  · rw [h1]; rfl

/-- Non-vacuity: `bundle("/a", [1, "x"], "b")`. -/
example : ∃ out, bundleFn [some [setString .fresh [47, 97]], some [.mk 105 false (.bits 1), setString .fresh [120]], some [setString .fresh [98]]] =
      some (0, some out) ∧
    Holds (some out) [.bndl [.mk (some [47, 97]) [.num 105 1, .str [120]], .mk none []]] :=
  C73_bundle _ _ (.pair _ _ _ [47, 97] [] [.num 105 1, .str [120]] _ rfl rfl (by simp [Copyable, sizeVal, strSize]) (.last _ [98] [] rfl)) (by simp)

/-- **C73**: a single string is the bundle of one message without values. -/
theorem C73_single (a : Ar) (n : Bytes) (h : Holds a [.str n]) :
    ∃ out, bundleFn [a] = some (0, some out) ∧ Holds (some out) [.bndl [.mk (addressOf n) []]] := by
  obtain ⟨x, h1, h2⟩ := holds_at h (i := 0) rfl
  have hl := holds_len h
  obtain ⟨al, p, rfl⟩ := val_str h2
  have e : a.getD [] = [.mk 115 al (.str p n)] := by
    cases a with
    | none => simp [at?] at h1
    | some l =>
      match l, hl with
      | [y], _ => simpa [at?] using h1
  refine ⟨_, ?_, bndl_holds (us := [.mk (newAddress n) []]) rfl⟩
  simp [bundleFn, e, strPtrOf]

/-- Not a string. -/
def NotStr : Val → Prop
  | .str _ => False
  | _ => True

theorem strPtrOf_not {x : UAtom} {v : Val} (h : x.val = some v) (hv : NotStr v) : strPtrOf (some x) = some none := by
  obtain ⟨tag, al, w⟩ := x
  by_cases ht : tag = 115
  · subst ht
    cases w with
    | str p s =>
      have h' : some (Val.str s) = some v := h
      cases h'
      exact hv.elim
    | _ => cases h
  · simp [strPtrOf, ht]

theorem strPtrOf_no {a : Ar} {vs : List Val} (h : Holds a vs) (hv : ∀ v, vs.head? = some v → NotStr v) : strPtrOf (at? a 0) = some none := by
  cases vs with
  | nil =>
    have := holds_len h
    have e : at? a 0 = none := by
      cases a with
      | none => rfl
      | some l => simp [len] at this; simp [this, at?]
    rw [e]; rfl
  | cons v vs =>
    obtain ⟨x, h1, h2⟩ := holds_at h (i := 0) rfl
    rw [h1]
    exact strPtrOf_not h2 (hv v rfl)

theorem bundleLoop_err {argv : List Ar} {ms : List VMsg} (h : Described argv ms) (a : Ar) (rest : List Ar) (vs : List Val) (ha : Holds a vs)
    (hv : ∀ v, vs.head? = some v → NotStr v) (hl : argv.length % 2 = 0) : bundleLoop (argv ++ a :: rest) = some none := by
  induction h with
  | nil =>
    cases rest with
    | nil => simp [bundleLoop, strPtrOf_no ha hv]
    | cons b rest => simp [bundleLoop, strPtrOf_no ha hv]
  | last => simp at hl
  | pair a' b rest' n us vs' ms ha' hb hc _ ih =>
    obtain ⟨l, h3, h4⟩ := mapM_copyAtom _ vs' hb hc
    have := ih (by simp at hl; omega)
    simp [bundleLoop, strPtrOf_str ha', h3, this]

/-- **C73**: where an address has to be, anything but a string is an error, and nothing is returned. -/
theorem C73_error (argv : List Ar) (ms : List VMsg) (h : Described argv ms) (he : argv.length % 2 = 0) (a : Ar) (rest : List Ar) (vs : List Val)
    (ha : Holds a vs) (hv : ∀ v, vs.head? = some v → NotStr v) (hl : (argv ++ a :: rest).length ≠ 1) :
    bundleFn (argv ++ a :: rest) = some (1, none) := by
  have h1 := bundleLoop_err h a rest vs ha hv he
  revert h1 hl
  generalize argv ++ a :: rest = l
  intro hl h1
  unfold bundleFn
  split
  · simp at hl
  · rw [h1]; rfl

example : bundleFn [some [setString .fresh [47, 97]], none, some [.mk 105 false (.bits 1)]] = some (1, none) :=
  C73_error [some [setString .fresh [47, 97]], none] _ (.pair _ _ _ [47, 97] [] [] [] rfl rfl (by simp) .nil) rfl
    (some [.mk 105 false (.bits 1)]) [] [.num 105 1] rfl (by rintro v hv; cases hv; trivial) (by simp)

theorem bytes_ok : ∀ (as : List UAtom) (vs : List Val) (bs : Bytes), argsVal as = some vs → vs.length = bs.length →
    (∀ (i : Nat) v c, vs[i]? = some v → bs[i]? = some c → ∃ n : Int, IntOf .i32 v n ∧ (n % 256).toNat = c.toNat) →
    (as.mapM fun (a : UAtom) => a.getInt32.map fun n => UInt8.ofNat (n % 256).toNat) = some bs
  | [], vs, bs, h, hl, _ => by
    cases h
    have : bs = [] := List.eq_nil_of_length_eq_zero (by simpa using hl.symm)
    subst this; rfl
  | a :: as, vs, bs, h, hl, hb => by
    simp only [argsVal, Option.bind_eq_some_iff, Option.map_eq_some_iff] at h
    obtain ⟨v, hv, vs', hvs, rfl⟩ := h
    cases bs with
    | nil => simp at hl
    | cons c bs =>
      obtain ⟨n, h1, h2⟩ := hb 0 v c rfl rfl
      obtain ⟨m, h3, h4⟩ := getU_int .i32 hv h1
      have h5 : (m % 256).toNat = c.toNat := by
        simp only [ITy.val, Val.num.injEq, true_and, ITy.width] at h4
        rw [← h2]; omega
      have ih := bytes_ok as vs' bs hvs (by simpa using hl) (fun i v c hv hc => hb (i + 1) v c hv hc)
      have h3' : a.getInt32 = some m := h3
      simp [List.mapM_cons, h3', h5, ih]

/-- **C73**: the bytes of a serialised bundle, as a list of numbers, are turned into that bundle. -/
theorem C73_bytes (a : Ar) (vs : List Val) (bs : Bytes) (us : List UMsg) (ms : List VMsg) (hm : msgsVal us = some ms) (hg : GoodMsgs ms)
    (hs : 16 + sizeVMsgs ms < 2147483648) (hb : serialize us = some bs) (ha : Holds a vs) (hl : vs.length = bs.length)
    (h : ∀ (i : Nat) v c, vs[i]? = some v → bs[i]? = some c → ∃ n : Int, IntOf .i32 v n ∧ (n % 256).toNat = c.toNat) :
    ∃ out, bundleFn [a] = some (0, some out) ∧ Holds (some out) [.bndl ms] := by
  obtain ⟨bytes, us', h1, h2, h3⟩ := C01_roundtrip_partial us ms hm hg hs
  rw [hb] at h1; cases h1
  obtain ⟨k, d, bodies, h4, h5, h6, h7, h8, h9⟩ := C02_bundle us ms hm (by omega)
  rw [hb] at h8; cases h8
  have e := bytes_ok (a.getD []) vs bs ha hl h
  have hlen : (a.getD []).length = bs.length := by rw [← hl]; exact holds_len ha
  have h16 : 16 ≤ bs.length := by rw [h9, List.length_append]; exact Nat.le_add_right_of_le (by decide)
  have e2 : bundleBytes (a.getD []) = some bs := by
    rw [bundleBytes, e, Option.map_some, h6, h5]
    simp [zeros]
  refine ⟨_, ?_, bndl_holds h3⟩
  simp only [bundleFn]
  revert e2 hlen
  generalize a.getD [] = as
  intro hlen e2
  rcases as with _ | ⟨x, _ | ⟨y, l⟩⟩
  · rw [List.length_nil] at hlen; omega
  · rw [List.length_singleton] at hlen; omega
  · simp only [e2, Option.bind_some, h2, Option.map_some]

/-- Non-vacuity: the bytes of the bundle with the message `/a` without values. -/
example : ∃ out, bundleFn [some (([35, 98, 117, 110, 100, 108, 101, 0, 0, 0, 0, 0, 0, 0, 0, 0, 0, 0, 0, 8, 47, 97, 0, 0, 44, 0, 0, 0] : List Nat).map
      fun n => .mk 105 false (.bits n))] = some (0, some out) ∧ Holds (some out) [.bndl [.mk (some [47, 97]) []]] := by
  have hb : serialize [.mk (some [47, 97]) []] =
      some [35, 98, 117, 110, 100, 108, 101, 0, 0, 0, 0, 0, 0, 0, 0, 0, 0, 0, 0, 8, 47, 97, 0, 0, 44, 0, 0, 0] := by decide +kernel
  refine C73_bytes _ (([35, 98, 117, 110, 100, 108, 101, 0, 0, 0, 0, 0, 0, 0, 0, 0, 0, 0, 0, 8, 47, 97, 0, 0, 44, 0, 0, 0] : List Nat).map
      fun n => .num 105 n) _ [.mk (some [47, 97]) []] _ rfl (by simp [GoodMsgs, GoodMsg, GoodVals]) (by decide) hb rfl rfl ?_
  intro i v c hv hc
  rw [List.getElem?_map, Option.map_eq_some_iff] at hv
  obtain ⟨n, hn, rfl⟩ := hv
  have hall : ∀ i : Fin 28, ([35, 98, 117, 110, 100, 108, 101, 0, 0, 0, 0, 0, 0, 0, 0, 0, 0, 0, 0, 8, 47, 97, 0, 0, 44, 0, 0, 0] : List Nat)[i]?.map UInt8.ofNat =
      ([35, 98, 117, 110, 100, 108, 101, 0, 0, 0, 0, 0, 0, 0, 0, 0, 0, 0, 0, 8, 47, 97, 0, 0, 44, 0, 0, 0] : Bytes)[i]? := by decide
  have hlt : ∀ m ∈ ([35, 98, 117, 110, 100, 108, 101, 0, 0, 0, 0, 0, 0, 0, 0, 0, 0, 0, 0, 8, 47, 97, 0, 0, 44, 0, 0, 0] : List Nat), m < 128 := by decide
  have hn1 := hlt n (List.mem_of_getElem? hn)
  have hi : i < 28 := by
    have := (List.getElem?_eq_some_iff.mp hc).1
    simpa using this
  have h1 := hall ⟨i, hi⟩
  simp only [Fin.getElem?_fin] at h1
  rw [hn, hc] at h1
  cases h1
  refine ⟨n, .inl ⟨.i32, ?_, ?_⟩, ?_⟩
  · simp [ITy.has, ITy.signed, ITy.width]; omega
  · simp [ITy.val, ITy.tag, ITy.width]; omega
  · simp; omega

/-- **C73, what fails**: `bundle` of a blob reads past the end of the blob, whatever the blob holds. -/
theorem C73_blob_fails (c : Bytes) (al : Bool) (p : Nat) (h : c.length < 2 ^ 31) :
    bundleFn [some [.mk 98 al (.blob p (be32 c.length ++ c))]] = none := by
  have hr : rdI32 (be32 c.length ++ c) 0 = some (c.length : Int) := by
    simp only [rdI32, rd32_be32, Option.map_some]
    rw [Nat.mod_eq_of_lt (by omega), toI32_small (by omega)]
  simp [bundleFn, getBlobCopy, blobLenOf, hr, slice]
  omega

/-! ## `match` (C74) -/

open Libo.Match Libo.PatSpec

/-- What `match` says about an address. -/
inductive Kind where
  | full | part | none
  deriving DecidableEq

/-- The limits within which the search of the pattern matcher is complete. -/
def Moderate (ps : List (List Tok)) (cs : List Bytes) : Prop :=
  ∃ K M, (∀ ts ∈ ps, branching ts ≤ K) ∧ (∀ ts ∈ ps, ∀ t ∈ ts, t.width ≤ M) ∧ (∀ s ∈ cs, s.length ≤ M) ∧ K * M ≤ 999

/-- An address is of the kind `full` if the pattern describes it, and of the kind `part` if a proper initial part of the components of the
pattern describes it; texts that do not begin with a slash are neither. -/
def OfKind (pat addr : Bytes) (k : Kind) : Prop :=
  (∀ ps cs, WFPat ps → WFAddr cs → (∀ ts ∈ ps, ∀ t ∈ ts, t.NonNull) → Moderate ps cs → pat = patText ps → addr = addrText cs →
    (k = .full ↔ AllMatch ps cs) ∧ (k = .part ↔ ∃ ps1 ps2, ps = ps1 ++ ps2 ∧ ps2 ≠ [] ∧ AllMatch ps1 cs)) ∧
  ((pat.head? ≠ some 47 ∨ addr.head? ≠ some 47) → k = .none)

/-- The kinds of the model. -/
def kindOf : Verdict → Kind
  | .full => .full
  | .partly => .part
  | .not => .none

theorem allMatch_length {ps : List (List Tok)} {cs : List Bytes} (h : AllMatch ps cs) : ps.length = cs.length := by
  induction h with
  | nil => rfl
  | cons _ _ ih => simp [ih]

theorem matchOne_ok (pat addr : Bytes) (hp : (0 : UInt8) ∉ pat) : ∃ v, matchOne pat addr = some v ∧ OfKind pat addr (kindOf v) := by
  obtain ⟨r, hr, hpo, _⟩ := C14_total pat addr hp
  have hch : ∃ c, ch pat r.po = some c := by
    refine ⟨(pat ++ [0])[r.po]'(by simp; omega), ?_⟩
    unfold ch
    exact List.getElem?_eq_getElem _
  obtain ⟨c, hc⟩ := hch
  have hcode := C14_codes pat addr r hr
  refine ⟨if r.code = 3 then .full else if r.po > 0 ∧ c = 47 then .partly else .not, ?_, ?_, ?_⟩
  · have h3 : (r.code &&& 1 ≠ 0 ∧ r.code &&& 2 ≠ 0) ↔ r.code = 3 := by
      rcases hcode with h | h | h | h | ⟨h | h | h | h | h | h | h, _⟩ <;> rw [h] <;> decide
    unfold matchOne
    rw [hr, Option.bind_some]
    by_cases h : r.code = 3
    · rw [if_pos (h3.mpr h), if_pos h]
    · rw [if_neg (fun hh => h (h3.mp hh)), if_neg h]
      by_cases h0 : r.po > 0
      · rw [if_pos h0, hc]
        by_cases h47 : c = 47
        · simp [h47, h0]
        · simp [h47]
      · rw [if_neg h0, if_neg (by omega)]
  · intro ps cs hwp hwa hn ⟨K, M, hK, hW, hM, hKM⟩ e1 e2
    subst e1 e2
    obtain ⟨r', hr', ho⟩ := oscMatch_out ps cs K M hwp hwa hK hW hM
    rw [hr] at hr'
    cases hr'
    have ho : Match.Out (patText ps).length (addrText cs).length ps cs r := by
      rcases ho with ⟨_, h⟩ | h
      · omega
      · exact h
    cases ho with
    | both hz =>
      have hm := zip_sound hz
      refine ⟨by simp [kindOf, hm], ?_⟩
      simp only [kindOf, if_true, reduceCtorEq, false_iff, not_exists]
      rintro ps1 ps2 ⟨rfl, h2, h⟩
      have := allMatch_length h
      have h5 := allMatch_length hm
      have := List.length_pos_iff.mpr h2
      rw [List.length_append] at h5; omega
    | patternDone as1 as2 he hne hz =>
      have hm := zip_sound hz
      have hl := allMatch_length hm
      have h2 := List.length_pos_iff.mpr hne
      have hz0 : c = 0 := by
        simp [ch] at hc
        exact hc.symm
      subst hz0
      have hv : ∀ {x : Verdict}, (if (2 : Nat) = 3 then Verdict.full else if (patText ps).length > 0 ∧ (0 : UInt8) = 47 then .partly else .not) = x → x = .not := by
        intro x hx; rw [← hx]; simp
      rw [hv rfl]
      refine ⟨?_, ?_⟩
      · simp only [kindOf, reduceCtorEq, false_iff]
        intro h
        have := allMatch_length h
        rw [he] at this; simp at this; omega
      · simp only [kindOf, reduceCtorEq, false_iff, not_exists]
        rintro ps1 ps2 ⟨rfl, h3, h⟩
        have := allMatch_length h
        rw [he] at this; simp at this hl; omega
    | addressDone ps1 ps2 he hne hz =>
      have hm := zip_sound hz
      have hl := allMatch_length hm
      have h2 := List.length_pos_iff.mpr hne
      subst he
      have hcs : 0 < cs.length := List.length_pos_iff.mpr hwa.1
      have e : (patText (ps1 ++ ps2)).length - (patText ps2).length = (patText ps1).length := by simp [patText]
      simp only [e] at hc hpo ⊢
      have h47 : c = 47 := by
        cases ps2 with
        | nil => exact absurd rfl hne
        | cons ts ps2 =>
          have : patText (ps1 ++ ts :: ps2) ++ [0] = patText ps1 ++ 47 :: (compText ts ++ (patText ps2 ++ [0])) := by simp [patText]
          rw [ch, this] at hc
          simpa using hc.symm
      have hpos : 0 < (patText ps1).length := by
        cases ps1 with
        | nil => simp at hl; omega
        | cons ts ps1 => simp [patText]
      have hv : (if (1 : Nat) = 3 then Verdict.full else if (patText ps1).length > 0 ∧ c = 47 then .partly else .not) = .partly := by
        simp [h47, hpos]
      rw [hv]
      refine ⟨?_, ?_⟩
      · simp only [kindOf, reduceCtorEq, false_iff]
        intro h
        have := allMatch_length h
        simp at this; omega
      · simp only [kindOf, true_iff]
        exact ⟨ps1, ps2, rfl, hne, hm⟩
    | no h1 h2 =>
      rw [show (if (0 : Nat) = 3 then Verdict.full else if (0 : Nat) > 0 ∧ c = 47 then .partly else .not) = .not by simp]
      refine ⟨?_, ?_⟩
      · simp only [kindOf, reduceCtorEq, false_iff]
        intro h
        exact h1 ⟨cs, [], by simp, zip_complete h hn⟩
      · simp only [kindOf, reduceCtorEq, false_iff, not_exists]
        rintro ps1 ps2 ⟨rfl, h3, h⟩
        exact h2 ⟨ps1, ps2, rfl, zip_complete h fun ts hts => hn ts (by simp [hts])⟩
  · intro h
    have : r.code ≠ 3 ∧ r.po = 0 := by
      by_cases h1 : pat.head? = some 47
      · have h2 : addr.head? ≠ some 47 := h.resolve_left (fun hh => hh h1)
        rw [(C14_leading_slash pat addr).2 h1 h2] at hr
        cases hr; simp
      · rw [(C14_leading_slash pat addr).1 h1] at hr
        cases hr; simp
    rw [if_neg this.1, if_neg (by omega)]
    rfl

/-- The strings among values. -/
def strings (vs : List Val) : List Bytes := vs.filterMap fun
  | .str s => some s
  | _ => .none

/-- The addresses of a kind, as values. -/
def ofKind (d : Bytes → Kind) (k : Kind) (as : List Bytes) : List Val := (as.filter fun a => d a = k).map .str

theorem val_cases (v : Val) : (∃ s, v = .str s) ∨ NotStr v := by
  cases v <;> first | exact .inl ⟨_, rfl⟩ | exact .inr trivial

theorem strings_str (s : Bytes) (vs : List Val) : strings (.str s :: vs) = s :: strings vs := rfl
theorem strings_not {v : Val} (h : NotStr v) (vs : List Val) : strings (v :: vs) = strings vs := by
  cases v <;> first | exact h.elim | rfl

theorem matchLoop_ok (pat : Bytes) (d : Bytes → Verdict) (hd : ∀ a, matchOne pat a = some (d a)) :
    ∀ (l : List UAtom) (ws : List Val), argsVal l = some ws → ∃ f p m u, matchLoop pat l = some (f, p, m) ∧ unmatchedLoop l m = some u ∧
      argsVal f = some (ofKind (fun a => kindOf (d a)) .full (strings ws)) ∧ argsVal p = some (ofKind (fun a => kindOf (d a)) .part (strings ws)) ∧
      argsVal u = some (ofKind (fun a => kindOf (d a)) .none (strings ws))
  | [], ws, h => by
    cases h
    exact ⟨[], [], [], [], rfl, rfl, rfl, rfl, rfl⟩
  | a :: l, ws, h => by
    simp only [argsVal, Option.bind_eq_some_iff, Option.map_eq_some_iff] at h
    obtain ⟨v, hv, ws', hvs, rfl⟩ := h
    obtain ⟨f, p, m, u, h1, h2, h3, h4, h5⟩ := matchLoop_ok pat d hd l ws' hvs
    rcases val_cases v with ⟨s, rfl⟩ | hn
    · have hs : strPtrOf (some a) = some (some s) := by
        obtain ⟨al, q, rfl⟩ := val_str hv
        rfl
      rw [strings_str]
      have hset := setString_fresh s
      cases hk : d s with
      | full =>
        refine ⟨setString .fresh s :: f, p, true :: m, u, ?_, ?_, ?_, ?_, ?_⟩
        · simp [matchLoop, hs, hd, h1, hk]
        · simpa [unmatchedLoop] using h2
        · simp [ofKind, kindOf, hk, argsVal, hset] at h3 ⊢; simpa using h3
        · simp [ofKind, kindOf, hk] at h4 ⊢; simpa using h4
        · simp [ofKind, kindOf, hk] at h5 ⊢; simpa using h5
      | partly =>
        refine ⟨f, setString .fresh s :: p, true :: m, u, ?_, ?_, ?_, ?_, ?_⟩
        · simp [matchLoop, hs, hd, h1, hk]
        · simpa [unmatchedLoop] using h2
        · simp [ofKind, kindOf, hk] at h3 ⊢; simpa using h3
        · simp [ofKind, kindOf, hk, argsVal, hset] at h4 ⊢; simpa using h4
        · simp [ofKind, kindOf, hk] at h5 ⊢; simpa using h5
      | not =>
        refine ⟨f, p, false :: m, setString .fresh s :: u, ?_, ?_, ?_, ?_, ?_⟩
        · simp [matchLoop, hs, hd, h1, hk]
        · simp [unmatchedLoop, hs, h2]
        · simp [ofKind, kindOf, hk] at h3 ⊢; simpa using h3
        · simp [ofKind, kindOf, hk] at h4 ⊢; simpa using h4
        · simp [ofKind, kindOf, hk, argsVal, hset] at h5 ⊢; simpa using h5
    · have hs := strPtrOf_not hv hn
      rw [strings_not hn]
      refine ⟨f, p, false :: m, u, ?_, ?_, h3, h4, h5⟩
      · simp [matchLoop, hs, h1]
      · simp [unmatchedLoop, hs, h2]

/-- What `match` returns for a pattern: four messages with the pattern, the addresses it describes, the addresses a part of it describes, and
the others, each in the order in which they were given.  Anything but a string is no pattern and gives no value. -/
def Answer (addrs : List Val) : Val → Val → Prop
  | .str pat, r => ∃ d : Bytes → Kind, (∀ a ∈ strings addrs, OfKind pat a (d a)) ∧
      r = .bndl [.mk (some [47, 112, 97, 116, 116, 101, 114, 110]) [.str pat], .mk (some [47, 102, 117, 108, 108]) (ofKind d .full (strings addrs)),
        .mk (some [47, 112, 97, 114, 116, 105, 97, 108]) (ofKind d .part (strings addrs)),
        .mk (some [47, 117, 110, 109, 97, 116, 99, 104, 101, 100]) (ofKind d .none (strings addrs))]
  | _, r => r = .bare 0

theorem matchMap_ok (b : List UAtom) (ws : List Val) (hb : argsVal b = some ws) (hne : ws ≠ []) : ∀ (l : List UAtom) (vs : List Val), argsVal l = some vs →
    (∀ s, .str s ∈ vs → (0 : UInt8) ∉ s) →
    ∃ out rs, l.mapM (matchElem b) = some out ∧ argsVal out = some rs ∧
      rs.length = vs.length ∧ ∀ (i : Nat) v r, vs[i]? = some v → rs[i]? = some r → Answer ws v r
  | [], vs, h, _ => by
    cases h
    exact ⟨[], [], rfl, rfl, rfl, by simp⟩
  | a :: l, vs, h, h0 => by
    simp only [argsVal, Option.bind_eq_some_iff, Option.map_eq_some_iff] at h
    obtain ⟨v, hv, vs', hvs, rfl⟩ := h
    obtain ⟨out, rs, h1, h2, h3, h4⟩ := matchMap_ok b ws hb hne l vs' hvs (fun s hs => h0 s (by simp [hs]))
    have key : ∃ x r, matchElem b a = some x ∧ x.val = some r ∧ Answer ws v r := by
      rcases val_cases v with ⟨s, rfl⟩ | hn
      · have hs : strPtrOf (some a) = some (some s) := by
          obtain ⟨al, q, rfl⟩ := val_str hv
          rfl
        have hd := fun x => matchOne_ok s x (h0 s (by simp))
        obtain ⟨d, hd⟩ := Classical.axiomOfChoice hd
        obtain ⟨f, p, m, u, g1, g2, g3, g4, g5⟩ := matchLoop_ok s d (fun x => (hd x).1) b ws hb
        have hbe : b.isEmpty = false := by
          cases b with
          | nil => cases hb; exact absurd rfl hne
          | cons _ _ => rfl
        refine ⟨UAtom.fresh.setBndlU newPtr
          [.mk (newAddress [47, 112, 97, 116, 116, 101, 114, 110]) [setString .fresh s],
           .mk (newAddress [47, 102, 117, 108, 108]) f,
           .mk (newAddress [47, 112, 97, 114, 116, 105, 97, 108]) p,
           .mk (newAddress [47, 117, 110, 109, 97, 116, 99, 104, 101, 100]) u], _, ?_, ?_, fun x => kindOf (d x), fun x _ => (hd x).2, rfl⟩
        · simp [matchElem, hs, matchBundle, hbe, g1, g2]
        · simp [UAtom.setBndlU, UAtom.val, msgsVal, msgVal, argsVal, setString_fresh, g3, g4, g5, newAddress]
      · refine ⟨UAtom.fresh, .bare 0, ?_, rfl, ?_⟩
        · simp [matchElem, strPtrOf_not hv hn]
        · cases v <;> first | exact hn.elim | exact rfl
    obtain ⟨x, r, k1, k2, k3⟩ := key
    refine ⟨x :: out, r :: rs, ?_, ?_, by simp [h3], ?_⟩
    · rw [List.mapM_cons, k1, h1]; rfl
    · simp [argsVal, k2, h2]
    · intro i v' r' hv' hr'
      cases i with
      | zero => cases hv'; cases hr'; exact k3
      | succ i => exact h4 i v' r' (by simpa using hv') (by simpa using hr')

/-- **C74**: `match` answers, for every pattern, which of the addresses it describes. -/
theorem C74_match (a b : Ar) (rest : List Ar) (vs ws : List Val) (ha : Holds a vs) (hb : Holds b ws) (hne : ws ≠ []) (h0 : ∀ s, .str s ∈ vs → (0 : UInt8) ∉ s) :
    ∃ out rs, matchFn (a :: b :: rest) = some (0, some out) ∧ Holds (some out) rs ∧ rs.length = vs.length ∧
      ∀ (i : Nat) v r, vs[i]? = some v → rs[i]? = some r → Answer ws v r := by
  obtain ⟨out, rs, h1, h2, h3, h4⟩ := matchMap_ok (b.getD []) ws hb hne (a.getD []) vs ha h0
  refine ⟨out, rs, ?_, h2, h3, h4⟩
  simp only [matchFn]
  rw [h1]; rfl

/-- Every address that is a string is in exactly one of the three lists. -/
theorem C74_partition (d : Bytes → Kind) (as : List Bytes) (a : Bytes) (h : a ∈ as) :
    ∃ k, .str a ∈ ofKind d k as ∧ ∀ k', .str a ∈ ofKind d k' as → k' = k := by
  refine ⟨d a, by simp [ofKind, h], ?_⟩
  intro k' hk
  simp [ofKind] at hk
  exact hk.2.symm

/-- **C74, what fails**: a pattern and no addresses make an array without elements. -/
theorem C74_empty_fails (pat : Bytes) (rest : List UAtom) (b : Ar) (hb : Holds b []) (rest' : List Ar) :
    matchFn (some (setString .fresh pat :: rest) :: b :: rest') = none := by
  have e : b.getD [] = [] := List.eq_nil_of_length_eq_zero (holds_len hb)
  simp [matchFn, e, List.mapM_cons, matchElem, setString, UAtom.fresh, strPtrOf, matchBundle]

/-- Non-vacuity: the pattern `/a*/b` describes `/ax/b`, its first component describes `/ay`, and `/ax/b/c` and `/c` are not matched. -/
example : OfKind (patText [[.lit 97, .star], [.lit 98]]) (addrText [[97, 120], [98]]) .full ∧
    OfKind (patText [[.lit 97, .star], [.lit 98]]) (addrText [[97, 121]]) .part ∧
    OfKind (patText [[.lit 97, .star], [.lit 98]]) (addrText [[97, 120], [98], [99]]) .none ∧
    ∃ cs, WFAddr cs ∧ cs = [[97, 120], [98]] ∧ Moderate [[.lit 97, .star], [.lit 98]] cs ∧ WFPat [[.lit 97, .star], [.lit 98]] := by
  have key : ∀ (a : Bytes) (v : Verdict), matchOne (patText [[.lit 97, .star], [.lit 98]]) a = some v →
      OfKind (patText [[.lit 97, .star], [.lit 98]]) a (kindOf v) := by
    intro a v hv
    obtain ⟨v', h1, h2⟩ := matchOne_ok (patText [[.lit 97, .star], [.lit 98]]) a (by decide)
    rw [hv] at h1; cases h1; exact h2
  exact ⟨key _ .full (by decide +kernel), key _ .partly (by decide +kernel), key _ .not (by decide +kernel),
    _, ⟨by simp, by decide⟩, rfl, ⟨1, 2, by decide, by decide, by decide, by decide⟩, ⟨by simp, by simp [Tok.WF]⟩⟩

example : ∃ (out : List UAtom) (rs : List Val), matchFn [some [setString .fresh [47, 97], .mk 105 false (.bits 1)], some [setString .fresh [47, 97]]] = some (0, some out) ∧
    Holds (some out) rs ∧ rs.length = 2 ∧ ∀ (i : Nat) v r, [Val.str [47, 97], .num 105 1][i]? = some v → rs[i]? = some r → Answer [.str [47, 97]] v r :=
  C74_match _ _ [] [.str [47, 97], .num 105 1] [.str [47, 97]] rfl rfl (by simp) (by simp)

/-! ## Strings and numbers as time tags (C75) -/

open Libo.CalSpec Libo.Iso

theorem num_tag {x : UAtom} {t : UInt8} {b : Nat} (h : x.val = some (.num t b)) : x.tag = t := by
  obtain ⟨tag, al, w⟩ := x
  unfold UAtom.val at h
  show tag = t
  split at h
  · cases h; rfl
  split at h
  · cases h; rfl
  split at h
  · cases h; rfl
  split at h
  · cases h; rfl
  split at h
  · cases h
  split at h
  · split at h <;> cases h
  split at h
  · split at h
    · simp [Option.bind_eq_some_iff] at h
    · cases h
  split at h
  · split at h
    · simp at h
    · cases h
  · cases h

theorem float_tag {x : UAtom} {v : Val} (h : x.val = some v) (ht : x.tag = 100 ∨ x.tag = 102) : (∃ b, v = .num 100 b) ∨ ∃ b, v = .num 102 b := by
  obtain ⟨tag, al, w⟩ := x
  rcases ht with ht | ht
  · have ht : tag = 100 := ht
    subst ht
    have h' : some (Val.num 100 (w.raw % M64)) = some v := h
    cases h'
    exact .inl ⟨_, rfl⟩
  · have ht : tag = 102 := ht
    subst ht
    have h' : some (Val.num 102 (w.raw % M32)) = some v := h
    cases h'
    exact .inr ⟨_, rfl⟩

theorem getD_single {a : Ar} {v : Val} (h : Holds a [v]) : ∃ x, at? a 0 = some x ∧ x.val = some v ∧ len a = 1 := by
  obtain ⟨x, h1, h2⟩ := holds_at h (i := 0) rfl
  exact ⟨x, h1, h2, holds_len h⟩

/-- **C75**: `readstring` of a string is the string. -/
theorem C75_readstring (a : Ar) (s : Bytes) (h : Holds a [.str s]) : ∃ out, readstring [a] = some (0, some out) ∧ Holds (some out) [.str s] := by
  obtain ⟨x, h1, h2, h3⟩ := getD_single h
  obtain ⟨al, p, rfl⟩ := val_str h2
  refine ⟨[setString .fresh s], ?_, by simp [Holds, argsVal, setString_fresh]⟩
  simp [readstring, h1, h3, strPtrOf]

/-- **C75**: longer lists and values that are not strings are errors of `readstring` and `strtotime`. -/
theorem C75_errors (a : Ar) (vs : List Val) (h : Holds a vs) (hv : vs.length ≠ 1 ∨ ∀ v, vs.head? = some v → NotStr v) :
    readstring [a] = some (1, none) ∧ ∀ rest, strtotime (a :: rest) = some (1, none) := by
  have hl := holds_len h
  by_cases h1 : len a > 1
  · simp [readstring, strtotime, h1]
  · have hn : ∀ v, vs.head? = some v → NotStr v := by
      rcases hv with hv | hv
      · intro v hh
        cases vs with
        | nil => cases hh
        | cons w ws => simp at hl hv; cases ws <;> simp_all
      · exact hv
    simp [readstring, strtotime, h1, strPtrOf_no h hn]

example : readstring [some [.mk 105 false (.bits 1)]] = some (1, none) :=
  (C75_errors (some [.mk 105 false (.bits 1)]) [.num 105 1] rfl (.inr (by rintro v hv; cases hv; trivial))).1

/-- **C75**: `strtotime` of a date and time in the form of ISO 8601 is the time tag with this second and this fraction, up to three units of
2^-32 seconds. -/
theorem C75_strtotime (a : Ar) (rest : List Ar) (y m d hh mi s : Nat) (fs r : Bytes) (hd : ValidDate y m d) (hy : y < 10000)
    (ht : ValidTime hh mi s) (hr : Fraction fs r) (hl : fs.length ≤ 9) (h : Holds a [.str (isoDate y m d hh mi s ++ r)]) :
    ∃ (out : List UAtom) (sec frac : Nat), strtotime (a :: rest) = some (0, some out) ∧ Holds (some out) [.time sec frac] ∧
      sec = seconds y m d hh mi s % 2 ^ 32 ∧ Reads frac (Iso.decVal fs) fs.length := by
  obtain ⟨x, h1, h2, h3⟩ := getD_single h
  obtain ⟨al, p, rfl⟩ := val_str h2
  obtain ⟨t, g1, g2, g3⟩ := C31_text_parse y m d hh mi s fs r hd hy ht hr hl
  obtain ⟨u, k1, k2⟩ := setTimetag_fresh t
  refine ⟨[u], _, _, ?_, ?_, g2, g3⟩
  · simp [strtotime, h1, h3, strPtrOf, g1, k1]
  · simp [Holds, argsVal, k2]

/-- Non-vacuity: `2021-03-04T05:06:07.5Z`. -/
example : ∃ (out : List UAtom) (sec frac : Nat), strtotime [some [setString .fresh (isoDate 2021 3 4 5 6 7 ++ [46, 53, 90])]] = some (0, some out) ∧
    Holds (some out) [.time sec frac] ∧ sec = seconds 2021 3 4 5 6 7 % 2 ^ 32 ∧ Reads frac (Iso.decVal [53]) 1 :=
  C75_strtotime _ [] 2021 3 4 5 6 7 [53] _ (by simp [ValidDate, monthLen]) (by decide) (by simp [ValidTime])
    (.some [53] [90] (by decide) (by rintro c hc; cases hc; decide)) (by decide) (by simp [Holds, argsVal, setString_fresh])

/-- **C75**: `floattotime` of a `float` or a `double` that is not negative and less than 2^32 is the time tag that is nearest to it but for
less than two units of 2^-32 seconds; whole numbers of seconds are exact. -/
theorem C75_floattotime (a : Ar) (rest : List Ar) (v : Val) (m : Nat) (hv : (∃ b, v = .num 100 b) ∨ ∃ b, v = .num 102 b)
    (hx : IsDouble v (.fin false m)) (hm : m / 2 ^ 1074 < 2 ^ 32) (h : Holds a [v]) :
    ∃ (out : List UAtom) (t : Timetag), floattotime (a :: rest) = some (0, some out) ∧ Holds (some out) [.time t.sec.toNat t.frac.toNat] ∧
      Close (ttValue t) m ∧ t.sec.toNat = m / 2 ^ 1074 ∧ (m % 2 ^ 1074 = 0 → t.frac.toNat = 0) := by
  obtain ⟨x, h1, h2, h3⟩ := getD_single h
  obtain ⟨t, g1, g2, g3, g4⟩ := asTime_num x v m h2 hx hm
  have hf := getFp_val x v _ h2 hx
  have htag : x.tag = 100 ∨ x.tag = 102 := by
    rcases hv with ⟨b, rfl⟩ | ⟨b, rfl⟩
    · exact .inl (num_tag h2)
    · exact .inr (num_tag h2)
  have g5 : fpToTime (.fin false m) = some t := by
    have h116 : x.tag ≠ 116 := by rcases htag with e | e <;> rw [e] <;> decide
    rw [asTime, if_neg h116, hf] at g1
    exact g1
  obtain ⟨u, k1, k2⟩ := setTimetag_fresh t
  refine ⟨[u], t, ?_, ?_, g2, g3, g4⟩
  · simp [floattotime, h1, h3, hf, g5, k1]
    rcases htag with e | e <;> simp [e]
  · simp [Holds, argsVal, k2]

/-- **C75**: everything else is an error of `floattotime`: longer lists, integers, strings. -/
theorem C75_floattotime_errors (a : Ar) (rest : List Ar) (vs : List Val) (h : Holds a vs)
    (hv : vs.length ≠ 1 ∨ ∀ v, vs.head? = some v → (∀ b, v ≠ .num 100 b) ∧ (∀ b, v ≠ .num 102 b)) : floattotime (a :: rest) = some (1, none) := by
  have hl := holds_len h
  by_cases h1 : len a > 1
  · simp [floattotime, h1]
  · rw [floattotime, if_neg h1]
    cases vs with
    | nil =>
      have e : at? a 0 = none := by
        cases a with
        | none => rfl
        | some l => simp [len] at hl; simp [hl, at?]
      rw [e]
    | cons w ws =>
      obtain ⟨x, g1, g2⟩ := holds_at h (i := 0) rfl
      have hw : (∀ b, w ≠ .num 100 b) ∧ (∀ b, w ≠ .num 102 b) := by
        rcases hv with hv | hv
        · simp at hl hv; cases ws <;> simp_all
        · exact hv w rfl
      have ht : x.tag ≠ 102 ∧ x.tag ≠ 100 := by
        refine ⟨fun e => ?_, fun e => ?_⟩
        · rcases float_tag g2 (.inr e) with ⟨b, hb⟩ | ⟨b, hb⟩
          · exact hw.1 b hb
          · exact hw.2 b hb
        · rcases float_tag g2 (.inl e) with ⟨b, hb⟩ | ⟨b, hb⟩
          · exact hw.1 b hb
          · exact hw.2 b hb
      rw [g1]
      simp only []
      rw [if_pos ht]

set_option maxRecDepth 20000 in
set_option exponentiation.threshold 3000 in
/-- Non-vacuity: 2.5 seconds as a `double`; an integer is an error. -/
example : (∃ (out : List UAtom) (t : Timetag), floattotime [some [.mk 100 false (.bits 4612811918334230528)]] = some (0, some out) ∧
      Holds (some out) [.time t.sec.toNat t.frac.toNat] ∧ Close (ttValue t) (5 * 2 ^ 1073) ∧ t.sec.toNat = 2) ∧
    floattotime [some [.mk 105 false (.bits 2)]] = some (1, none) := by
  refine ⟨?_, C75_floattotime_errors _ [] [.num 105 2] rfl (.inr (by rintro v hv; cases hv; simp))⟩
  have e : Fp.ofBits f64 4612811918334230528 = .fin false (5 * 2 ^ 1073) := by decide +kernel
  have hx : IsDouble (.num 100 4612811918334230528) (.fin false (5 * 2 ^ 1073)) := e ▸ IsDouble.double 4612811918334230528
  obtain ⟨out, t, h1, h2, h3, h4, _⟩ := C75_floattotime (some [.mk 100 false (.bits 4612811918334230528)]) [] _ _ (.inl ⟨_, rfl⟩) hx (by decide +kernel) rfl
  refine ⟨out, t, h1, h2, h3, ?_⟩
  rw [h4]

end Libo.Props
