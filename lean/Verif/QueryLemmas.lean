import Verif.Query
import Verif.Props.Match
import Verif.Props.Hashtab
import Verif.BundleSOps
/-!
# Lemmas about the offsets of a match
-/

namespace Libo.Query
open Libo Libo.Match Libo.PatSpec

/-- What the offset into the pattern says about the pattern. -/
def OffOk (pat : Bytes) (r : Res) : Prop :=
  (r.code = 1 → 0 < r.po ∧ ch pat r.po = some 47) ∧
  (r.code = 2 → ch pat r.po = some 0) ∧
  (r.code = 0x800 → ∃ c, ch pat r.po = some c ∧ c ≠ 47 ∧ (c = 42 → ch pat (r.po + 1) ≠ some 0))

def Pos (st : List (Nat × Nat)) : Prop := ∀ e ∈ st, 0 < e.1

theorem scan_ge {f : UInt8 → Bool} {s : Bytes} {i j : Nat} (h : scan f s i = some j) : i ≤ j := by
  unfold scan at h; split at h
  · simp at h; omega
  · simp at h

theorem scan_stop {f : UInt8 → Bool} {s : Bytes} {i j : Nat} (h : scan f s i = some j) {c : UInt8} (hc : ch s i = some c)
    (hf : f c = false) : j = i := by
  unfold scan at h; split at h
  · rename_i hi
    simp only [Option.some.injEq] at h
    have : ((s.drop i).takeWhile f).length = 0 := by
      cases hd : s.drop i with
      | nil => rfl
      | cons x xs =>
        have hx : s[i]? = some x := by
          have := List.getElem?_drop (xs := s) (i := i) (j := 0)
          rw [hd] at this; simpa using this.symm
        have hil : i < s.length := by
          have := List.getElem?_eq_some_iff.mp hx; exact this.1
        rw [ch, List.getElem?_append_left hil, hx] at hc
        cases hc
        simp [hf]
    omega
  · simp at h

theorem pushAll_cases {ps rest : List (Nat × Nat)} {po ao : Nat} {s : Step} (h : pushAll ps rest po ao = s) :
    s = .ret ⟨0x800, po, ao⟩ ∨ s = .cont (ps.reverse ++ rest) := by
  unfold pushAll at h; split at h
  · exact .inl h.symm
  · exact .inr h.symm

theorem altPushes_pos {pat addr : Bytes} {aa rest : Nat} (hr : 0 < rest) : ∀ n p1 p2 l, altPushes pat addr aa rest n p1 p2 = some l →
    ∀ e ∈ l, 0 < e.1 := by
  intro n
  induction n with
  | zero => intro p1 p2 l h; simp [altPushes] at h
  | succ n ih =>
    intro p1 p2 l h
    simp only [altPushes, Option.bind_eq_bind, Option.bind_eq_some_iff] at h
    obtain ⟨c, _, h⟩ := h
    split at h
    · simp at h; subst h; simp
    split at h
    · simp only [Option.bind_eq_some_iff] at h
      obtain ⟨eq, _, h⟩ := h
      have hhere : ∀ e ∈ (if eq = true then [(rest, aa + (p2 - p1))] else [] : List (Nat × Nat)), 0 < e.1 := by
        intro e he
        split at he
        · simp at he; subst he; exact hr
        · simp at he
      split at h
      · simp only [Option.pure_def, Option.some.injEq] at h
        subst h; exact hhere
      · simp only [Option.bind_eq_some_iff] at h
        obtain ⟨more, hm, h⟩ := h
        simp only [Option.pure_def, Option.some.injEq] at h
        subst h
        intro e he
        rcases List.mem_append.mp he with he | he
        · exact hhere e he
        · exact ih _ _ _ hm e he
    · exact ih _ _ _ h

theorem step_off (pat addr : Bytes) (p a : Nat) (rest : List (Nat × Nat)) (hp : 0 < p) (hrest : Pos rest) (s : Step)
    (h : step pat addr ((p, a) :: rest) = some s) :
    (∀ r, s = .ret r → OffOk pat r) ∧ (∀ st, s = .cont st → Pos st) := by
  have hok : ∀ r : Res, r.code ≠ 1 → r.code ≠ 2 → r.code ≠ 0x800 → OffOk pat r := fun r h1 h2 h3 =>
    ⟨fun h => absurd h h1, fun h => absurd h h2, fun h => absurd h h3⟩
  have hpos : ∀ q b, 0 < q → Pos ((q, b) :: rest) := by
    intro q b hq e he
    rcases List.mem_cons.mp he with rfl | he
    · exact hq
    · exact hrest e he
  simp only [step, Option.bind_eq_bind, Option.bind_eq_some_iff] at h
  obtain ⟨pc, hpc, ac, _, h⟩ := h
  split at h
  · simp only [stepEnd, Option.bind_eq_bind, Option.bind_eq_some_iff] at h
    obtain ⟨q, hq, c, hc, h⟩ := h
    have hqp := scan_ge hq
    split at h
    · simp at h; subst h
      exact ⟨fun r hr => by cases hr; exact hok _ (by simp) (by simp) (by simp), fun st hst => by cases hst⟩
    split at h
    · rename_i hs
      simp at h; subst h
      refine ⟨fun r hr => by cases hr; exact ⟨fun _ => ⟨Nat.lt_of_lt_of_le hp hqp, by rw [hc, hs]⟩, by simp, by simp⟩, fun st hst => by cases hst⟩
    · simp at h; subst h
      exact ⟨fun r hr => (by cases hr), fun st hst => by cases hst; exact hrest⟩
  split at h
  · unfold stepSlash at h
    split at h
    · simp at h; subst h
      refine ⟨fun r hr => (by cases hr), fun st hst => by cases hst; simp [Pos]⟩
    split at h
    · rename_i hz
      simp at h; subst h
      refine ⟨fun r hr => by cases hr; exact ⟨by simp, fun _ => by rw [hpc, hz], by simp⟩, fun st hst => by cases hst⟩
    split at h
    · simp only [Option.bind_eq_bind, Option.bind_eq_some_iff] at h
      obtain ⟨q, hq, h⟩ := h
      have := scan_ge hq
      simp at h; subst h
      exact ⟨fun r hr => (by cases hr), fun st hst => by cases hst; exact hpos _ _ (by omega)⟩
    · simp at h; subst h
      exact ⟨fun r hr => (by cases hr), fun st hst => by cases hst; exact hrest⟩
  simp only [Option.bind_eq_some_iff] at h
  obtain ⟨ls, _, h⟩ := h
  split at h
  · simp only [Option.bind_eq_some_iff] at h
    obtain ⟨a', _, p', hp', h⟩ := h
    have := scan_ge hp'
    simp at h; subst h
    exact ⟨fun r hr => (by cases hr), fun st hst => by cases hst; exact hpos _ _ (by omega)⟩
  unfold stepChar at h
  split at h
  · simp at h; subst h
    exact ⟨fun r hr => (by cases hr), fun st hst => by cases hst; exact hrest⟩
  split at h
  · simp at h; subst h
    exact ⟨fun r hr => (by cases hr), fun st hst => by cases hst; exact hrest⟩
  split at h
  · simp at h; subst h
    exact ⟨fun r hr => (by cases hr), fun st hst => by cases hst; exact hpos _ _ (by omega)⟩
  split at h
  · simp only [stepRange, Option.bind_eq_bind, Option.bind_eq_some_iff] at h
    obtain ⟨rr, hrr, h⟩ := h
    have := Props.range_codes _ _ _ _ hrr
    split at h
    · simp at h; subst h
      exact ⟨fun r hr => (by cases hr), fun st hst => by cases hst; exact hrest⟩
    split at h
    · simp only [Option.bind_eq_some_iff] at h
      obtain ⟨_, _, q, hq, _, _, h⟩ := h
      split at h
      · simp at h; subst h
        exact ⟨fun r hr => (by cases hr), fun st hst => by cases hst; exact hpos _ _ (by omega)⟩
      · simp at h; subst h
        exact ⟨fun r hr => by cases hr; exact hok _ (by simp) (by simp) (by simp), fun st hst => by cases hst⟩
    · simp at h; subst h
      refine ⟨fun r hr => by cases hr; exact hok _ (by simp; omega) (by simp; omega) (by simp; omega), fun st hst => by cases hst⟩
  split at h
  · rename_i hb
    simp only [stepBrace, Option.bind_eq_bind, Option.bind_eq_some_iff] at h
    obtain ⟨q, hq, _, _, h⟩ := h
    split at h
    · simp only [Option.bind_eq_some_iff] at h
      obtain ⟨ps, hps, h⟩ := h
      simp only [Option.pure_def, Option.some.injEq] at h
      rcases pushAll_cases h with rfl | rfl
      · refine ⟨fun r hr => by cases hr; exact ⟨by simp, by simp, fun _ => ⟨_, hpc, by rw [hb]; decide, fun h => by rw [hb] at h; exact absurd h (by decide)⟩⟩, fun st hst => by cases hst⟩
      · refine ⟨fun r hr => (by cases hr), fun st hst => ?_⟩
        cases hst
        intro e he
        rcases List.mem_append.mp he with he | he
        · exact altPushes_pos (by omega) _ _ _ _ hps e (List.mem_reverse.mp he)
        · exact hrest e he
    · simp at h; subst h
      exact ⟨fun r hr => by cases hr; exact hok _ (by simp) (by simp) (by simp), fun st hst => by cases hst⟩
  split at h
  · simp at h; subst h
    exact ⟨fun r hr => by cases hr; exact hok _ (by simp) (by simp) (by simp), fun st hst => by cases hst⟩
  split at h
  · simp at h; subst h
    exact ⟨fun r hr => by cases hr; exact hok _ (by simp) (by simp) (by simp), fun st hst => by cases hst⟩
  split at h
  · rename_i hb
    simp only [stepStar, Option.bind_eq_bind, Option.bind_eq_some_iff] at h
    obtain ⟨q, hq, c, hc, e, _, h⟩ := h
    have := scan_ge hq
    split at h
    · simp at h; subst h
      exact ⟨fun r hr => (by cases hr), fun st hst => by cases hst; exact hpos _ _ (by omega)⟩
    · rename_i hne
      simp only [Option.pure_def, Option.some.injEq] at h
      rcases pushAll_cases h with rfl | rfl
      · refine ⟨fun r hr => ?_, fun st hst => by cases hst⟩
        cases hr
        refine ⟨by simp, by simp, fun _ => ⟨_, hpc, by rw [hb]; decide, fun _ h0 => ?_⟩⟩
        have := scan_stop hq h0 (by decide)
        rw [this, h0] at hc
        cases hc
        exact hne (.inl rfl)
      · refine ⟨fun r hr => (by cases hr), fun st hst => ?_⟩
        cases hst
        intro e he
        rcases List.mem_append.mp he with he | he
        · simp at he
          obtain ⟨i, _, rfl⟩ := he
          show 0 < q
          omega
        · exact hrest e he
  split at h
  · simp at h; subst h
    exact ⟨fun r hr => (by cases hr), fun st hst => by cases hst; exact hpos _ _ (by omega)⟩
  · simp at h; subst h
    exact ⟨fun r hr => (by cases hr), fun st hst => by cases hst; exact hrest⟩

theorem run_off (pat addr : Bytes) : ∀ n st r, Pos st → Match.run pat addr n st = some r → OffOk pat r := by
  intro n
  induction n with
  | zero => intro st r _ h; simp [Match.run] at h
  | succ n ih =>
    intro st r hst h
    cases st with
    | nil =>
      simp [Match.run, step] at h
      subst h
      exact ⟨by simp, by simp, by simp⟩
    | cons e rest =>
      obtain ⟨p, a⟩ := e
      rw [Match.run] at h
      split at h
      · simp at h
      · rename_i r' hs
        simp at h; subst h
        exact (step_off pat addr p a rest (hst (p, a) (by simp)) (fun e he => hst e (by simp [he])) _ hs).1 _ rfl
      · rename_i st' hs
        exact ih st' r ((step_off pat addr p a rest (hst (p, a) (by simp)) (fun e he => hst e (by simp [he])) _ hs).2 _ rfl) h

theorem match_off (pat addr : Bytes) (r : Res) (h : oscMatch pat addr = some r) : OffOk pat r := by
  simp only [oscMatch, Option.bind_eq_bind, Option.bind_eq_some_iff] at h
  obtain ⟨pc, hpc, ac, hac, h⟩ := h
  split at h
  · simp at h; subst h; exact ⟨by simp, by simp, by simp⟩
  split at h
  · simp at h; subst h; exact ⟨by simp, by simp, by simp⟩
  rename_i h1 h2
  have h1 : pc = SLASH := Classical.not_not.mp h1
  have h2 : ac = SLASH := Classical.not_not.mp h2
  rw [fuel, Match.run] at h
  have hs : step pat addr [(0, 0)] = some (.cont [(1, 1)]) := by
    simp only [step, hpc, hac, h1, h2, bnd]
    rw [if_neg (by decide), if_pos trivial, stepSlash, if_pos rfl]
  rw [hs] at h
  exact run_off pat addr _ _ r (by simp [Pos]) h

/-- The test in plain terms: a complete match is result 3, a partial match is result 1, everything else is no match. -/
def verdictOf (addr sel : Bytes) : Verdict :=
  match oscMatch addr sel with
  | some r => if r.code = 3 then .full else if r.code = 1 then .part r.po r.ao else .miss
  | none => .miss

theorem verdict_eq (addr sel : Bytes) (h0 : (0 : UInt8) ∉ addr) : verdict addr sel = some (verdictOf addr sel) := by
  obtain ⟨r, hr, hpo, _⟩ := Props.C14_total addr sel h0
  obtain ⟨h1, h2, h8⟩ := match_off addr sel r hr
  have hcode := Props.C14_codes addr sel r hr
  obtain ⟨c, hc⟩ := ch_total hpo
  have hstar : ∃ st, (if c = 42 then (ch addr (r.po + 1)).map (· == 0) else some false : Option Bool) = some st := by
    by_cases h42 : c = 42
    · have hlt : r.po < addr.length := by
        apply Classical.byContradiction
        intro hn
        have he : r.po = addr.length := by omega
        rw [he] at hc
        simp [ch] at hc
        rw [← hc] at h42
        revert h42; decide
      obtain ⟨d, hd⟩ := ch_total (q := addr) (i := r.po + 1) (by omega)
      rw [if_pos h42, hd]; exact ⟨_, rfl⟩
    · rw [if_neg h42]; exact ⟨_, rfl⟩
  obtain ⟨st, hst⟩ := hstar
  simp only [verdict, verdictOf, hr, hc, hst, bnd]
  rcases hcode with h | h | h | h | ⟨h, hpo0, _⟩
  · simp [h]
  · have := h2 h
    rw [hc] at this; cases this
    have : st = false := by
      rw [if_neg (by decide)] at hst; simpa using hst.symm
    subst this
    simp [h]
  · obtain ⟨hp, hc'⟩ := h1 h
    rw [hc] at hc'; cases hc'
    simp [h, hp]
  · obtain ⟨c', hc', h47, h42⟩ := h8 h
    rw [hc] at hc'; cases hc'
    have : st = false := by
      by_cases hh : c = 42
      · rw [if_pos hh] at hst
        obtain ⟨d, hd⟩ : ∃ d, ch addr (r.po + 1) = some d := by
          cases hx : ch addr (r.po + 1) with
          | none => rw [hx] at hst; simp at hst
          | some d => exact ⟨d, rfl⟩
        have := h42 hh
        rw [hd] at hst this
        simp at hst this
        rw [← hst]; simpa using this
      · rw [if_neg hh] at hst; simpa using hst.symm
    subst this
    simp [h, h47]
  · rcases h with h | h | h | h | h | h | h <;> simp [h, hpo0]

/-! ## Plain addresses -/

abbrev lits (cs : List Bytes) : List (List Tok) := cs.map fun s => s.map Tok.lit

theorem lits_all (cs : List Bytes) : ∀ as : List Bytes, (∀ s ∈ as, (42 : UInt8) ∉ s) → (AllMatch (lits cs) as ↔ cs = as) := by
  induction cs with
  | nil =>
    intro as _
    constructor
    · intro h; cases h; rfl
    · rintro rfl; exact .nil
  | cons c cs ih =>
    intro as hs
    constructor
    · intro h
      cases h with
      | cons hc hr =>
        rename_i s as
        rcases hc with hc | hc
        · exact absurd (by rw [hc]; simp) (hs s (by simp))
        · rw [(Props.lits_match _ _).mp hc, (ih _ (fun s h => hs s (by simp [h]))).mp hr]
    · rintro rfl
      exact .cons (Or.inr ((Props.lits_match _ _).mpr rfl)) ((ih _ (fun s h => hs s (by simp [h]))).mpr rfl)

theorem lits_branching (cs : List Bytes) : ∀ ts ∈ lits cs, branching ts ≤ 0 := by
  intro ts hts
  simp only [List.mem_map] at hts
  obtain ⟨s, _, rfl⟩ := hts
  have : (s.map Tok.lit).filter (fun t => match t with | .star => true | .alts _ => true | _ => false) = [] := by
    rw [List.filter_eq_nil_iff]
    intro t ht
    simp only [List.mem_map] at ht
    obtain ⟨c, _, rfl⟩ := ht
    simp
  simp [branching]

theorem lits_width (cs : List Bytes) (M : Nat) : ∀ ts ∈ lits cs, ∀ t ∈ ts, t.width ≤ M := by
  intro ts hts t ht
  simp only [List.mem_map] at hts
  obtain ⟨s, _, rfl⟩ := hts
  simp only [List.mem_map] at ht
  obtain ⟨c, _, rfl⟩ := ht
  exact Nat.zero_le _

theorem lits_nonnull (cs : List Bytes) : ∀ ts ∈ lits cs, ∀ t ∈ ts, t.NonNull := by
  intro ts hts t ht
  simp only [List.mem_map] at hts
  obtain ⟨s, _, rfl⟩ := hts
  simp only [List.mem_map] at ht
  obtain ⟨c, _, rfl⟩ := ht
  trivial

theorem nostar_comps (as : List Bytes) (h : (42 : UInt8) ∉ addrText as) : ∀ s ∈ as, (42 : UInt8) ∉ s := by
  intro s hs h'
  apply h
  simp only [addrText, List.mem_flatMap, List.mem_cons]
  exact ⟨s, hs, Or.inr h'⟩

theorem addrText_append (a b : List Bytes) : addrText (a ++ b) = addrText a ++ addrText b := by simp [addrText]

theorem addrText_cons_head (d : Bytes) (ds : List Bytes) : ∃ rest, addrText (d :: ds) = 47 :: rest :=
  ⟨d ++ addrText ds, by simp [addrText]⟩

theorem patText_lits (cs : List Bytes) : patText (lits cs) = addrText cs := by
  induction cs with
  | nil => rfl
  | cons x c1 ih =>
    simp only [lits, List.map_cons] at ih ⊢
    rw [patText_cons, addrText_cons, ih]
    congr 2
    simp only [compText]
    clear ih
    induction x with
    | nil => rfl
    | cons c s ih => simp [Tok.text] at ih ⊢; exact ih

theorem code3_iff (a s : Bytes) (ha : Props.Plain a) (has : a.head? = some 47) (h0 : (0 : UInt8) ∉ s)
    (hs : s.head? = some 47) (hstar : (42 : UInt8) ∉ s) : verdictOf a s = .full ↔ a = s := by
  rw [← Props.C12_plain_equality a s ha has h0 hs hstar]
  unfold verdictOf
  cases h : oscMatch a s with
  | none => simp
  | some r =>
    by_cases h3 : r.code = 3
    · simp [h3]
    · by_cases h1 : r.code = 1 <;> simp [h1, h3]

theorem code1_iff (a s : Bytes) (ha : Props.Plain a) (has : a.head? = some 47) (h0 : (0 : UInt8) ∉ s)
    (hs : s.head? = some 47) (hstar : (42 : UInt8) ∉ s) (po ao : Nat) :
    verdictOf a s = .part po ao ↔ po = s.length ∧ ao = s.length ∧ ∃ rest, a = s ++ 47 :: rest := by
  constructor
  · intro h
    unfold verdictOf at h
    cases hr : oscMatch a s with
    | none => rw [hr] at h; simp at h
    | some r =>
      rw [hr] at h
      by_cases h3 : r.code = 3
      · simp [h3] at h
      · by_cases h1 : r.code = 1
        · simp [h1] at h
          obtain ⟨cs, hw, he, het, hwp⟩ := Props.plain_comps a ha has
          obtain ⟨as, hwa, hea⟩ := Props.addr_exhaustive s h0 hs
          rw [← het, ← hea] at hr
          obtain ⟨ps1, ps2, hps, hne, hm, hao, hpo, _⟩ := (Props.C13_partial_boundaries _ as hwp hwa r hr).2.1 h1
          obtain ⟨c1, c2, hc, e1, e2⟩ := List.map_eq_append_iff.mp hps
          subst e1 e2
          have := (lits_all c1 as (nostar_comps as (by rw [hea]; exact hstar))).mp hm
          subst this
          have hc2 : c2 ≠ [] := by intro h; subst h; exact hne rfl
          obtain ⟨d, ds, rfl⟩ := List.exists_cons_of_ne_nil hc2
          have e : a = s ++ addrText (d :: ds) := by rw [← he, hc, addrText_append, hea]
          have e' := patText_lits c1
          refine ⟨?_, ?_, ?_⟩
          · rw [← h.1, hpo, e', hea]
          · rw [← h.2, hao, hea]
          · obtain ⟨rest, hrest⟩ := addrText_cons_head d ds
            exact ⟨rest, by rw [e, hrest]⟩
        · simp [h1, h3] at h
  · rintro ⟨rfl, rfl, rest, rfl⟩
    have hsp : Props.Plain s := fun c hc => ha c (List.mem_append_left _ hc)
    have hrp : Props.Plain (47 :: rest) := fun c hc => ha c (List.mem_append_right _ hc)
    obtain ⟨cs, hw, he, het, hwp⟩ := Props.plain_comps s hsp hs
    obtain ⟨ds, hwd, hed, hedt, hwpd⟩ := Props.plain_comps (47 :: rest) hrp rfl
    have := Props.C13_address_complete_partial (lits cs) (lits ds) cs
      ⟨by simp [hw.1], by
        intro ts hts
        rcases List.mem_append.mp hts with h | h
        · exact hwp.2 ts h
        · exact hwpd.2 ts h⟩ hw (lits_nonnull cs)
      ((lits_all cs cs (nostar_comps cs (by rw [he]; exact hstar))).mpr rfl) (by simp [hwd.1]) 0
      ((cs.map List.length).sum)
      (by
        intro ts hts
        rcases List.mem_append.mp hts with h | h
        · exact lits_branching cs ts h
        · exact lits_branching ds ts h)
      (by
        intro ts hts
        rcases List.mem_append.mp hts with h | h
        · exact lits_width cs _ ts h
        · exact lits_width ds _ ts h)
      (fun x hx => Props.mem_le_sum (List.mem_map_of_mem hx))
    obtain ⟨r, hr, h⟩ := this
    have e : patText (lits cs ++ lits ds) = s ++ 47 :: rest := by
      rw [← het, ← hedt]; simp [patText]
    rw [e, he] at hr
    rcases h with h | h
    · rw [verdictOf, hr, h]
      show (if (1 : Nat) = 3 then Verdict.full else if 1 = 1 then .part (patText (lits cs)).length (addrText cs).length else .miss) = _
      rw [if_neg (by decide), if_pos rfl, he]
      show Verdict.part (patText (List.map _ cs)).length _ = _
      rw [het]
    · omega

end Libo.Query
