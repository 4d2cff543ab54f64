import Verif.MatchRefine
/-!
# Backtracking search inside one component (helper lemmas)

`Acc` describes what the matcher's search accepts.  It implies the specification `Matches`, and coincides with it when
no alternative is empty.
-/

namespace Libo.Match
open Libo.PatSpec

/-- What the search accepts (algorithmic reading of the token list). -/
def Acc : List Tok → Bytes → Prop
  | [], s => s = []
  | t :: ts, [] => t = .star ∧ Acc ts []
  | .lit c :: ts, x :: s => c = x ∧ Acc ts s
  | .any :: ts, _ :: s => Acc ts s
  | .set neg items :: ts, x :: s => setOk neg items x ∧ Acc ts s
  | .alts as :: ts, x :: s => ∃ u ∈ as, ∃ v, x :: s = u ++ v ∧ Acc ts v
  | .star :: ts, x :: s => Acc ts [] ∨ ∃ u v, x :: s = u ++ v ∧ v ≠ [] ∧ Acc ts v

theorem acc_nil_iff (ts : List Tok) : Acc ts [] ↔ ∀ t ∈ ts, t = .star := by
  induction ts with
  | nil => simp [Acc]
  | cons t ts ih => simp [Acc, ih]

theorem Acc.sound : ∀ {ts : List Tok} {s : Bytes}, Acc ts s → Matches ts s := by
  intro ts
  induction ts with
  | nil => intro s h; simp [Acc] at h; subst h; exact .nil
  | cons t ts ih =>
    intro s h
    cases s with
    | nil =>
      simp only [Acc] at h
      obtain ⟨rfl, h⟩ := h
      exact .star (u := []) (ih h)
    | cons x s =>
      cases t with
      | lit c => simp only [Acc] at h; obtain ⟨rfl, h⟩ := h; exact .lit (ih h)
      | any => exact .any (ih h)
      | set neg items =>
        simp only [Acc] at h
        obtain ⟨h1, h⟩ := h
        cases neg with
        | true => exact .setNeg (by simpa [setOk] using h1) (ih h)
        | false => exact .setPos (by simpa [setOk] using h1) (ih h)
      | alts as =>
        simp only [Acc] at h
        obtain ⟨u, hu, v, he, h⟩ := h
        rw [he]
        exact .alts hu (ih h)
      | star =>
        simp only [Acc] at h
        rcases h with h | ⟨u, v, he, _, h⟩
        · have := Matches.star (u := x :: s) (ih h)
          simpa using this
        · rw [he]; exact .star (ih h)

theorem Acc.complete {ts : List Tok} {s : Bytes} (h : Matches ts s) :
    (∀ t ∈ ts, t.NonNull) → Acc ts s := by
  induction h with
  | nil => intro _; simp [Acc]
  | lit _ ih => intro hn; exact ⟨rfl, ih (fun t ht => hn t (by simp [ht]))⟩
  | any _ ih => intro hn; exact ih (fun t ht => hn t (by simp [ht]))
  | @star u ts s _ ih =>
    intro hn
    have h := ih (fun t ht => hn t (by simp [ht]))
    cases hs : u ++ s with
    | nil =>
      simp at hs
      rw [hs.2] at h
      exact ⟨rfl, h⟩
    | cons x r =>
      simp only [Acc]
      cases s with
      | nil => exact Or.inl h
      | cons y s => exact Or.inr ⟨u, y :: s, hs.symm, by simp, h⟩
  | @setPos x items ts s hx _ ih =>
    intro hn
    exact ⟨by simpa [setOk] using hx, ih (fun t ht => hn t (by simp [ht]))⟩
  | @setNeg x items ts s hx _ ih =>
    intro hn
    exact ⟨by simpa [setOk] using hx, ih (fun t ht => hn t (by simp [ht]))⟩
  | @alts u as ts s hu _ ih =>
    intro hn
    have h := ih (fun t ht => hn t (by simp [ht]))
    have hne : u ≠ [] := by
      rintro rfl
      exact hn (.alts as) (by simp) hu
    cases u with
    | nil => exact absurd rfl hne
    | cons x u => exact ⟨x :: u, hu, s, rfl, h⟩

/-- Leading stars collapse. -/
theorem acc_star_star (ts : List Tok) (s : Bytes) : Acc (.star :: .star :: ts) s ↔ Acc (.star :: ts) s := by
  cases s with
  | nil => simp [Acc]
  | cons x s =>
    simp only [Acc]
    constructor
    · rintro (⟨_, h⟩ | ⟨u, v, he, hv, h⟩)
      · exact Or.inl h
      · cases v with
        | nil => exact absurd rfl hv
        | cons y v =>
          simp only [Acc] at h
          rcases h with h | ⟨u', v', he', hv', h⟩
          · exact Or.inl h
          · exact Or.inr ⟨u ++ u', v', by rw [he, he']; simp, hv', h⟩
    · rintro (h | ⟨u, v, he, hv, h⟩)
      · exact Or.inl ⟨trivial, h⟩
      · refine Or.inr ⟨[], x :: s, rfl, by simp, ?_⟩
        simp only [Acc]
        exact Or.inr ⟨u, v, he, hv, h⟩

theorem acc_stars (k : Nat) (ts : List Tok) (s : Bytes) :
    Acc (.star :: (List.replicate k .star ++ ts)) s ↔ Acc (.star :: ts) s := by
  induction k with
  | zero => simp
  | succ k ih => rw [List.replicate_succ, List.cons_append, acc_star_star, ih]

/-- Split off leading stars. -/
theorem split_stars (ts : List Tok) : ∃ k ts', ts = List.replicate k .star ++ ts' ∧ ts'.head? ≠ some .star := by
  induction ts with
  | nil => exact ⟨0, [], rfl, by simp⟩
  | cons t ts ih =>
    by_cases h : t = .star
    · subst h
      obtain ⟨k, ts', he, hh⟩ := ih
      exact ⟨k + 1, ts', by rw [he, List.replicate_succ]; rfl, hh⟩
    · exact ⟨0, t :: ts, rfl, by simp [h]⟩

theorem compText_cons (t : Tok) (ts : List Tok) : compText (t :: ts) = t.text ++ compText ts := by
  simp [compText]

theorem compText_append (ts ts' : List Tok) : compText (ts ++ ts') = compText ts ++ compText ts' := by
  simp [compText]

theorem compText_stars (k : Nat) : compText (List.replicate k .star) = List.replicate k 42 := by
  induction k with
  | zero => rfl
  | succ k ih => rw [List.replicate_succ, compText_cons, ih, List.replicate_succ]; rfl

/-- First character of a well-formed token. -/
theorem tok_head (t : Tok) (h : t.WF) : ∃ c r, t.text = c :: r ∧ c ≠ 0 ∧ c ≠ 47 ∧ (c = 42 ↔ t = .star) := by
  cases t with
  | lit c => exact ⟨c, [], rfl, h.1, h.2.1, by simp; exact h.2.2.2.1⟩
  | any => exact ⟨63, [], rfl, by decide, by decide, by decide⟩
  | star => exact ⟨42, [], rfl, by decide, by decide, by decide⟩
  | set neg items => exact ⟨91, _, rfl, by decide, by decide, by simp⟩
  | alts as => exact ⟨123, _, rfl, by decide, by decide, by simp⟩

/-- An abstract state: positions together with the remaining tokens and the remaining component text. -/
structure AE where
  p : Nat
  a : Nat
  ts : List Tok
  s : Bytes

/-- Fixed data of the component being searched: the texts after the component. -/
structure Ctx (pat addr Pt At : Bytes) : Prop where
  pt : Pt = [] ∨ ∃ r, Pt = 47 :: r
  at' : At = [] ∨ ∃ r, At = 47 :: r

/-- The abstract state describes the concrete positions. -/
structure Valid (pat addr Pt At : Bytes) (M : Nat) (x : AE) : Prop where
  hp : x.p ≤ pat.length
  hpd : pat.drop x.p = compText x.ts ++ Pt
  hwf : ∀ t ∈ x.ts, t.WF
  ha : x.a ≤ addr.length
  had : addr.drop x.a = x.s ++ At
  hs : ∀ c ∈ x.s, c ≠ 0 ∧ c ≠ 47
  hl : x.s ≠ [42] ∨ x.a = 0 ∨ ch addr (x.a - 1) ≠ some 47
  hM : x.s.length ≤ M
  hW : ∀ t ∈ x.ts, t.width ≤ M

def AE.e (x : AE) : Nat × Nat := (x.p, x.a)

/-- A new state further right in the component. -/
theorem Valid.adv {pat addr Pt At : Bytes} {M : Nat} {x : AE} (h : Valid pat addr Pt At M x) {tu ts' : List Tok}
    {u v : Bytes} (hts : x.ts = tu ++ ts') (hs : x.s = u ++ v) :
    Valid pat addr Pt At M ⟨x.p + (compText tu).length, x.a + u.length, ts', v⟩ := by
  have hpd := h.hpd
  have had := h.had
  rw [hts, compText_append, List.append_assoc] at hpd
  rw [hs, List.append_assoc] at had
  have hlp := le_of_drop h.hp hpd
  have hla := le_of_drop h.ha had
  constructor
  · simp; omega
  · exact drop_add hpd
  · intro t ht; exact h.hwf t (by rw [hts]; simp [ht])
  · simp; omega
  · exact drop_add had
  · intro c hc; exact h.hs c (by rw [hs]; simp [hc])
  · by_cases hu : u = []
    · subst hu
      simp only [List.nil_append] at hs
      simpa [hs] using h.hl
    · right; right
      simp only
      obtain ⟨u', c, rfl⟩ : ∃ u' c, u = u' ++ [c] := ⟨u.dropLast, u.getLast hu, (List.dropLast_concat_getLast hu).symm⟩
      have : x.a + (u' ++ [c]).length - 1 = x.a + u'.length := by simp
      rw [this, ch_drop h.ha, had]
      simp only [List.append_assoc, List.getElem?_append_right (Nat.le_refl _), Nat.sub_self]
      simp
      exact (h.hs c (by rw [hs]; simp)).2
  · have := h.hM; rw [hs] at this; simp at this ⊢; omega
  · intro t ht; exact h.hW t (by rw [hts]; simp [ht])

/-- Reaching the end of the component in both strings determines how the whole match goes on. -/
def Bnd (pat addr Pt At : Bytes) (r : Res) : Prop :=
  match Pt, At with
  | [], [] => r = ⟨3, pat.length, addr.length⟩
  | _ :: _, [] => r = ⟨1, pat.length - Pt.length, addr.length⟩
  | [], _ :: _ => r = ⟨2, pat.length, addr.length - At.length⟩
  | _ :: _, _ :: _ => Eval pat addr [(pat.length - Pt.length + 1, addr.length - At.length + 1)] r

/-- Both strings at the end of the component. -/
theorem bnd_eval {pat addr Pt At : Bytes} {M : Nat} (hC : Ctx pat addr Pt At) {x : AE}
    (h : Valid pat addr Pt At M x) (hts : x.ts = []) (hs : x.s = []) (rest) {r : Res} (hr : Bnd pat addr Pt At r) :
    Eval pat addr (x.e :: rest) r := by
  have hpd := h.hpd; rw [hts] at hpd; simp [compText] at hpd
  have had := h.had; rw [hs] at had; simp at had
  have hlp := le_of_drop (u := []) h.hp hpd
  have hla := le_of_drop (u := []) h.ha had
  simp at hlp hla
  have hcp : ch pat x.p = (Pt ++ [0])[0]? := by rw [ch_drop0 h.hp, hpd]
  have hca : ch addr x.a = (At ++ [0])[0]? := by rw [ch_drop0 h.ha, had]
  obtain ⟨p, a, ts, s⟩ := x
  simp only at *
  have hp1 := h.hp
  have ha1 := h.ha
  simp only at hp1 ha1
  rcases hC.at' with rfl | ⟨At', rfl⟩
  · have hca' : ch addr a = some 0 := by simpa using hca
    have hscan : scan isStar pat p = some p := by
      have := scan_eq (f := isStar) (u := []) (r := Pt) hp1 (by simpa using hpd) (by simp) (by
        intro c r' he
        rcases hC.pt with rfl | ⟨Pt', rfl⟩
        · simp at he
        · simp at he; rw [← he.1]; decide)
      simpa using this
    simp at hla
    rcases hC.pt with rfl | ⟨Pt', rfl⟩
    · have hcp' : ch pat p = some 0 := by simpa using hcp
      simp [Bnd] at hr
      simp at hlp
      have hst : step pat addr (AE.e ⟨p, a, ts, s⟩ :: rest) = some (.ret ⟨3, p, a⟩) := by
        simp [step, AE.e, hcp', hca', stepEnd, hscan]
      rw [hr, ← hlp, ← hla]
      exact .ret hst
    · have hcp' : ch pat p = some 47 := by simpa using hcp
      simp [Bnd] at hr
      simp at hlp
      have hst : step pat addr (AE.e ⟨p, a, ts, s⟩ :: rest) = some (.ret ⟨1, p, a⟩) := by
        simp [step, AE.e, hcp', hca', stepEnd, hscan]
      rw [hr, ← hla, show pat.length - (Pt'.length + 1) = p by omega]
      exact .ret hst
  · have hca' : ch addr a = some 47 := by simpa using hca
    rcases hC.pt with rfl | ⟨Pt', rfl⟩
    · have hcp' : ch pat p = some 0 := by simpa using hcp
      simp [Bnd] at hr
      simp at hlp hla
      have hst : step pat addr (AE.e ⟨p, a, ts, s⟩ :: rest) = some (.ret ⟨2, p, a⟩) := by
        simp [step, AE.e, hcp', hca', stepSlash, SLASH]
      rw [hr, ← hlp, show addr.length - (At'.length + 1) = a by omega]
      exact .ret hst
    · have hcp' : ch pat p = some 47 := by simpa using hcp
      simp only [Bnd] at hr
      simp at hlp hla
      have e1 : pat.length - (47 :: Pt').length = p := by simp; omega
      have e2 : addr.length - (47 :: At').length = a := by simp; omega
      rw [e1, e2] at hr
      apply Eval.cont _ hr
      simp [step, AE.e, hcp', hca', stepSlash]

/-- Summary of one round at a valid state `x` with `rest` below it. -/
inductive Round (pat addr Pt At : Bytes) (M : Nat) (x : AE) (rest : List (Nat × Nat)) : Prop where
  /-- the state is replaced by the states `l` -/
  | go (l : List AE) (hstep : step pat addr (x.e :: rest) = some (.cont (l.map AE.e ++ rest)))
      (hv : ∀ y ∈ l, Valid pat addr Pt At M y) (hacc : Acc x.ts x.s ↔ ∃ y ∈ l, Acc y.ts y.s)
      (hd : (l.length ≤ 1 ∧ ∀ y ∈ l, branching y.ts ≤ branching x.ts) ∨
        (l.length ≤ M ∧ ∀ y ∈ l, branching y.ts + 1 ≤ branching x.ts))
  /-- backtrack limit -/
  | limit (k : Nat) (po ao : Nat) (hstep : step pat addr (x.e :: rest) = some (.ret ⟨0x800, po, ao⟩))
      (hk : rest.length + k > LIMIT) (hM : k ≤ M) (hb : 1 ≤ branching x.ts)
  /-- the component is finished -/
  | fin (hacc : Acc x.ts x.s) (heval : ∀ r, Bnd pat addr Pt At r → Eval pat addr (x.e :: rest) r)

theorem round_pop {pat addr Pt At : Bytes} {M : Nat} {x : AE} {rest}
    (hstep : step pat addr (x.e :: rest) = some (.cont rest)) (hacc : ¬ Acc x.ts x.s) :
    Round pat addr Pt At M x rest :=
  .go [] (by simpa using hstep) (by simp) (by simpa using hacc) (by simp)

theorem branching_append (a b : List Tok) : branching (a ++ b) = branching a + branching b := by
  simp [branching]

theorem altStates_length (as : List Bytes) (t : Bytes) (aa r : Nat) : (altStates as t aa r).length ≤ as.length := by
  simp [altStates]; exact List.length_filter_le _ _

theorem prefix_comp {u s At : Bytes} (hAt : At = [] ∨ ∃ r, At = 47 :: r) (hu : ∀ c ∈ u, c ≠ (47 : UInt8))
    (h : u <+: s ++ At) : u <+: s := by
  induction u generalizing s with
  | nil => exact List.nil_prefix
  | cons c u ih =>
    cases s with
    | nil =>
      exfalso
      obtain ⟨t, ht⟩ := h
      rcases hAt with rfl | ⟨r, rfl⟩
      · simp at ht
      · simp at ht; exact hu c (by simp) ht.1
    | cons d s =>
      simp only [List.cons_append, List.cons_prefix_cons] at h ⊢
      exact ⟨h.1, ih (fun c hc => hu c (by simp [hc])) h.2⟩

theorem loneStar_false {pat addr Pt At : Bytes} {M : Nat} (hC : Ctx pat addr Pt At) {x : AE}
    (h : Valid pat addr Pt At M x) {y : UInt8} {s : Bytes} (hs : x.s = y :: s) :
    loneStar addr x.a y = some false := by
  unfold loneStar
  split
  · rename_i hy
    obtain ⟨rfl, ha0⟩ := hy
    have hla := le_of_drop h.ha h.had
    rw [hs] at hla
    simp at hla
    obtain ⟨c1, h1⟩ := ch_some (s := addr) (i := x.a - 1) (by omega)
    have had := h.had
    rw [hs] at had
    have h2 : ch addr (x.a + 1) = (s ++ At ++ [0])[0]? := by
      rw [ch_drop h.ha, had]; simp
    cases s with
    | nil =>
      have hc2 : ∃ c2, ch addr (x.a + 1) = some c2 := ch_some (by simp at hla; omega)
      obtain ⟨c2, hc2⟩ := hc2
      have hc1 : c1 ≠ 47 := by
        rcases h.hl with hl | hl | hl
        · exact absurd hs hl
        · omega
        · intro he; rw [h1, he] at hl; exact hl rfl
      simp [h1, hc2, hc1]
    | cons d s =>
      have hd := h.hs d (by rw [hs]; simp)
      simp at h2
      simp [h1, h2, hd.1, hd.2]
  · rfl

/-- One round at a valid state. -/
theorem round (pat addr Pt At : Bytes) (M : Nat) (hC : Ctx pat addr Pt At) (x : AE) (rest)
    (h : Valid pat addr Pt At M x) : Round pat addr Pt At M x rest := by
  by_cases hfin : x.ts = [] ∧ x.s = []
  · exact .fin (by rw [hfin.1, hfin.2]; simp [Acc]) (fun r hr => bnd_eval hC h hfin.1 hfin.2 rest hr)
  cases hs : x.s with
  | nil =>
    -- the address component is exhausted
    have hts : x.ts ≠ [] := fun hh => hfin ⟨hh, hs⟩
    have had := h.had; rw [hs] at had; simp at had
    have hca : ch addr x.a = (At ++ [0])[0]? := by rw [ch_drop0 h.ha, had]
    obtain ⟨k, ts', hk, hk'⟩ := split_stars x.ts
    have hpd := h.hpd
    rw [hk, compText_append, compText_stars, List.append_assoc] at hpd
    have hlp := le_of_drop h.hp hpd
    simp at hlp
    have hnext : ∀ c r', compText ts' ++ Pt = c :: r' → isStar c = false := by
      intro c r' he
      cases ts' with
      | nil =>
        simp [compText] at he
        rcases hC.pt with rfl | ⟨Pt', rfl⟩
        · simp at he
        · simp at he; rw [← he.1]; decide
      | cons t ts' =>
        obtain ⟨c', r, ht, h0, h47, h42⟩ := tok_head t (h.hwf t (by rw [hk]; simp))
        rw [compText_cons, ht] at he
        simp at he
        rw [← he.1]
        have : c' ≠ 42 := fun hh => hk' (by simp [h42.mp hh])
        simp [isStar, this]
    have hscan : scan isStar pat x.p = some (x.p + k) := by
      have := scan_eq h.hp hpd (by intro c hc; rw [List.mem_replicate] at hc; rw [hc.2]; decide) hnext
      simpa using this
    -- the state after skipping stars
    have hadv := h.adv (tu := List.replicate k .star) (ts' := ts') (u := []) (v := []) hk (by simpa using hs)
    rw [compText_stars] at hadv
    simp at hadv
    have hacc : Acc x.ts [] ↔ Acc ts' [] := by
      rw [acc_nil_iff, acc_nil_iff, hk]
      constructor
      · intro hh t ht; exact hh t (by simp [ht])
      · intro hh t ht
        rcases List.mem_append.mp ht with ht | ht
        · exact (List.mem_replicate.mp ht).2
        · exact hh t ht
    obtain ⟨pc, hpc⟩ := ch_some h.hp
    rcases hC.at' with hAt | ⟨At', hAt⟩
    · have hca' : ch addr x.a = some 0 := by rw [hca, hAt]; rfl
      cases ts' with
      | nil =>
        refine .fin (by rw [hs, hacc]; simp [Acc]) (fun r hr => ?_)
        -- same as at the end of the pattern component
        have hb := bnd_eval hC hadv rfl rfl rest hr
        simp only [AE.e] at hb ⊢
        have hlk : x.p + k ≤ pat.length := by omega
        have hscan' : scan isStar pat (x.p + k) = some (x.p + k) := by
          have := scan_eq (f := isStar) (u := []) (r := Pt) hlk (by
            have := drop_add hpd; simpa [compText] using this) (by simp) (by simpa [compText] using hnext)
          simpa using this
        have hsame : step pat addr ((x.p, x.a) :: rest) = step pat addr ((x.p + k, x.a) :: rest) := by
          obtain ⟨pc', hpc'⟩ := ch_some hlk
          simp [step, hpc, hpc', hca', stepEnd, hscan, hscan']
        cases hb with
        | ret h1 => exact .ret (hsame ▸ h1)
        | cont h1 h2 => exact .cont (hsame ▸ h1) h2
      | cons t ts' =>
        obtain ⟨c', r, ht, h0, h47, h42⟩ := tok_head t (h.hwf t (by rw [hk]; simp))
        have hq : ch pat (x.p + k) = some c' := by
          rw [ch_drop0 (by omega)]
          have := drop_add hpd
          simp at this
          rw [this, compText_cons, ht]; rfl
        apply round_pop
        · simp [step, AE.e, hpc, hca', stepEnd, hscan, hq, h0, h47]
        · rw [hs, hacc]
          simp only [Acc]
          rintro ⟨rfl, _⟩
          exact hk' rfl
    · have hca' : ch addr x.a = some 47 := by rw [hca, hAt]; rfl
      cases k with
      | zero =>
        simp at hk
        cases ts' with
        | nil => exact absurd hk hts
        | cons t ts' =>
          obtain ⟨c', r, ht, h0, h47, h42⟩ := tok_head t (h.hwf t (by rw [hk]; simp))
          have hq : ch pat x.p = some c' := by
            rw [ch_drop0 h.hp, hpd, compText_cons, ht]; rfl
          have hns : c' ≠ 42 := fun hh => hk' (by simp [h42.mp hh])
          apply round_pop
          · simp [step, AE.e, hq, hca', stepSlash, h0, h47, hns]
          · rw [hs, hacc]
            simp only [Acc]
            rintro ⟨rfl, _⟩
            exact hk' rfl
      | succ k =>
        have hq : ch pat x.p = some 42 := by
          rw [ch_drop0 h.hp, hpd, List.replicate_succ]; rfl
        refine .go [⟨x.p + (k + 1), x.a, ts', []⟩] ?_ (by simpa using hadv) (by simp [hs, hacc]) (Or.inl ⟨by simp, ?_⟩)
        · simp [step, AE.e, hq, hca', stepSlash, hscan, SLASH, STAR]
        · simp only [List.mem_singleton, forall_eq]
          rw [hk, branching_append]; omega
  | cons y s =>
    have hy := h.hs y (by rw [hs]; simp)
    have had := h.had; rw [hs] at had
    have hca : ch addr x.a = some y := by rw [ch_drop0 h.ha, had]; rfl
    have hls := loneStar_false hC h hs
    have hstep0 : ∀ pc, ch pat x.p = some pc →
        step pat addr (x.e :: rest) = stepChar pat addr x.p x.a pc y rest := by
      intro pc hpc
      simp only [step, AE.e, hpc, hca, Option.bind_eq_bind, Option.bind_some, if_neg hy.1, if_neg hy.2, hls,
        Bool.false_eq_true, if_false]
    have hla := le_of_drop h.ha had
    simp at hla
    cases hts : x.ts with
    | nil =>
      have hpd := h.hpd; rw [hts] at hpd; simp [compText] at hpd
      have hcp : ch pat x.p = (Pt ++ [0])[0]? := by rw [ch_drop0 h.hp, hpd]
      apply round_pop
      · rcases hC.pt with hPt | ⟨Pt', hPt⟩
        · have : ch pat x.p = some 0 := by rw [hcp, hPt]; rfl
          rw [hstep0 _ this]; simp [stepChar]
        · have : ch pat x.p = some 47 := by rw [hcp, hPt]; rfl
          rw [hstep0 _ this]; simp [stepChar]
      · rw [hts, hs]; simp [Acc]
    | cons t ts =>
      have hwt := h.hwf t (by rw [hts]; simp)
      have hpd := h.hpd; rw [hts, compText_cons, List.append_assoc] at hpd
      have hlp := le_of_drop h.hp hpd
      have hone := h.adv (tu := [t]) (ts' := ts) (u := [y]) (v := s) (by simpa using hts) (by simpa using hs)
      have hct : compText [t] = t.text := by simp [compText]
      rw [hct] at hone
      simp only [List.length_cons, List.length_nil, Nat.zero_add] at hone
      cases t with
      | lit c =>
        obtain ⟨w0, w1, w2, w3, w4, w5, w6, w7⟩ := hwt
        have hcp : ch pat x.p = some c := by rw [ch_drop0 h.hp, hpd]; rfl
        have hst := hstep0 _ hcp
        by_cases hcy : c = y
        · refine .go [⟨x.p + 1, x.a + 1, ts, s⟩] ?_ (by simpa [Tok.text] using hone)
            (by simp [hts, hs, Acc, hcy]) (Or.inl ⟨by simp, ?_⟩)
          · rw [hst]
            subst hcy
            simp [stepChar, AE.e, w0, w1, w2, w3, w4, w5, w6, w7]
          · simp [hts, branching]
        · apply round_pop
          · rw [hst]; simp [stepChar, w0, w1, w2, w3, w4, w5, w6, w7, hcy]
          · rw [hts, hs]; simp [Acc, hcy]
      | any =>
        have hcp : ch pat x.p = some 63 := by rw [ch_drop0 h.hp, hpd]; rfl
        have hst := hstep0 _ hcp
        refine .go [⟨x.p + 1, x.a + 1, ts, s⟩] ?_ (by simpa [Tok.text] using hone)
            (by simp [hts, hs, Acc]) (Or.inl ⟨by simp, ?_⟩)
        · rw [hst]; simp [stepChar, AE.e, SLASH, QMARK]
        · simp [hts, branching]
      | set neg items =>
        have hcp : ch pat x.p = some 91 := by rw [ch_drop0 h.hp, hpd]; rfl
        have hst := hstep0 _ hcp
        have hst' : step pat addr (x.e :: rest) = stepRange pat x.p x.a y rest := by
          rw [hst]; simp [stepChar, SLASH, QMARK, LBRACK, LBRACE, RBRACE, RBRACK, STAR]
        have hr := stepRange_set pat x.p x.a y rest neg items (compText ts ++ Pt) h.hp hwt hpd
        by_cases hok : setOk neg items y
        · refine .go [⟨x.p + (Tok.set neg items).text.length, x.a + 1, ts, s⟩] ?_ (by simpa using hone)
            (by simp [hts, hs, Acc, hok]) (Or.inl ⟨by simp, ?_⟩)
          · rw [hst', hr.1 hok]; rfl
          · simp [hts, branching]
        · apply round_pop
          · rw [hst', hr.2 hok]
          · rw [hts, hs]; simp [Acc, hok]
      | alts as =>
        have hcp : ch pat x.p = some 123 := by rw [ch_drop0 h.hp, hpd]; rfl
        have hst := hstep0 _ hcp
        have hst' : step pat addr (x.e :: rest) = stepBrace pat addr x.p x.a rest := by
          rw [hst]; simp [stepChar, SLASH, QMARK, LBRACK, LBRACE, RBRACE, RBRACK, STAR]
        have hb := stepBrace_alts pat addr x.p x.a rest as (compText ts ++ Pt) h.hp h.ha hwt hpd
        rw [hb] at hst'
        have hwid : as.length ≤ M := h.hW (.alts as) (by rw [hts]; simp)
        have hbr : branching ts + 1 ≤ branching x.ts := by rw [hts]; simp [branching]
        have hlen := altStates_length as (addr.drop x.a) x.a (x.p + (Tok.alts as).text.length)
        unfold pushAll at hst'
        split at hst'
        · rename_i hlim
          exact .limit _ _ _ hst' hlim (by omega) (by omega)
        · let L : List AE := ((as.filter fun u => u.isPrefixOf (addr.drop x.a)).map fun u =>
            (⟨x.p + (Tok.alts as).text.length, x.a + u.length, ts, (y :: s).drop u.length⟩ : AE)).reverse
          have hpre : ∀ u ∈ as, u.isPrefixOf (addr.drop x.a) = true → ∃ v, y :: s = u ++ v := by
            intro u hu hpu
            have h1 : u <+: (y :: s) ++ At := by
              rw [List.isPrefixOf_iff_prefix] at hpu
              rw [had] at hpu; exact hpu
            obtain ⟨v, hv⟩ := prefix_comp hC.at' (fun c hc => (hwt.2 u hu c hc).2.1) h1
            exact ⟨v, hv.symm⟩
          refine .go L ?_ ?_ ?_ (Or.inr ⟨?_, ?_⟩)
          · rw [hst']
            simp [L, altStates, AE.e, List.map_reverse, Function.comp_def]
          · intro z hz
            simp only [L, List.mem_reverse, List.mem_map, List.mem_filter] at hz
            obtain ⟨u, ⟨hu, hpu⟩, rfl⟩ := hz
            obtain ⟨v, hv⟩ := hpre u hu hpu
            have := h.adv (tu := [.alts as]) (ts' := ts) (u := u) (v := v) (by simpa using hts) (by rw [hs, hv])
            rw [hct] at this
            simpa [hv] using this
          · rw [hts, hs]
            simp only [Acc]
            constructor
            · rintro ⟨u, hu, v, hv, hacc⟩
              refine ⟨⟨x.p + (Tok.alts as).text.length, x.a + u.length, ts, (y :: s).drop u.length⟩, ?_, ?_⟩
              · simp only [L, List.mem_reverse, List.mem_map, List.mem_filter]
                refine ⟨u, ⟨hu, ?_⟩, rfl⟩
                rw [List.isPrefixOf_iff_prefix, had, hv]
                exact ⟨v ++ At, by simp⟩
              · simpa [hv] using hacc
            · rintro ⟨z, hz, hacc⟩
              simp only [L, List.mem_reverse, List.mem_map, List.mem_filter] at hz
              obtain ⟨u, ⟨hu, hpu⟩, rfl⟩ := hz
              obtain ⟨v, hv⟩ := hpre u hu hpu
              refine ⟨u, hu, v, hv, ?_⟩
              simpa [hv] using hacc
          · simp only [L, List.length_reverse, List.length_map]
            have := List.length_filter_le (fun u : Bytes => u.isPrefixOf (addr.drop x.a)) as
            omega
          · intro z hz
            simp only [L, List.mem_reverse, List.mem_map, List.mem_filter] at hz
            obtain ⟨u, _, rfl⟩ := hz
            exact hbr
      | star =>
        have hcp : ch pat x.p = some 42 := by rw [ch_drop0 h.hp, hpd]; rfl
        have hst := hstep0 _ hcp
        have hst' : step pat addr (x.e :: rest) = stepStar pat addr x.p x.a rest := by
          rw [hst]; simp [stepChar, SLASH, QMARK, LBRACK, LBRACE, RBRACE, RBRACK, STAR]
        obtain ⟨k, ts', hk, hk'⟩ := split_stars ts
        have hd1 := drop_add (u := [42]) (r := compText ts ++ Pt) (s := pat) (p := x.p) hpd
        simp only [List.length_cons, List.length_nil, Nat.zero_add] at hd1
        have hd2 := hd1
        rw [hk, compText_append, compText_stars, List.append_assoc] at hd2
        have hlp1 : x.p + 1 ≤ pat.length := by simp [Tok.text] at hlp; omega
        have hlp2 := le_of_drop hlp1 hd2
        simp at hlp2
        have hnext : ∀ c r', compText ts' ++ Pt = c :: r' → isStar c = false := by
          intro c r' he
          cases ts' with
          | nil =>
            simp [compText] at he
            rcases hC.pt with rfl | ⟨Pt', rfl⟩
            · simp at he
            · simp at he; rw [← he.1]; decide
          | cons t ts' =>
            obtain ⟨c', r, ht, h0, h47, h42⟩ := tok_head t (h.hwf t (by rw [hts, hk]; simp))
            rw [compText_cons, ht] at he
            simp at he
            rw [← he.1]
            have : c' ≠ 42 := fun hh => hk' (by simp [h42.mp hh])
            simp [isStar, this]
        have hscan : scan isStar pat (x.p + 1) = some (x.p + 1 + k) := by
          have := scan_eq hlp1 hd2 (by intro c hc; rw [List.mem_replicate] at hc; rw [hc.2]; decide) hnext
          simpa using this
        have hscanA : scan inComp addr x.a = some (x.a + (y :: s).length) := by
          refine scan_eq h.ha had ?_ ?_
          · intro c hc
            have := h.hs c (by rw [hs]; exact hc)
            simp [inComp, this]
          · intro c r' he
            rcases hC.at' with hA | ⟨At', hA⟩
            · rw [hA] at he; simp at he
            · rw [hA] at he; simp at he; rw [← he.1]; decide
        have hq : ch pat (x.p + 1 + k) = (compText ts' ++ Pt ++ [0])[0]? := by
          rw [ch_drop0 (by omega)]
          have := drop_add hd2
          simp at this
          rw [this]
        have hacc : Acc x.ts x.s ↔ Acc (.star :: ts') (y :: s) := by
          rw [hts, hs, hk, acc_stars]
        have hts2 : x.ts = List.replicate (k + 1) .star ++ ts' := by
          rw [hts, hk, List.replicate_succ]; rfl
        have hbr : branching ts' + 1 ≤ branching x.ts := by
          rw [hts2, branching_append, List.replicate_succ]
          have : 1 ≤ branching (.star :: List.replicate k .star) := by simp [branching]
          omega
        have hadv : ∀ u v, y :: s = u ++ v → Valid pat addr Pt At M ⟨x.p + 1 + k, x.a + u.length, ts', v⟩ := by
          intro u v huv
          have := h.adv (tu := List.replicate (k + 1) .star) (ts' := ts') (u := u) (v := v) hts2 (by rw [hs, huv])
          rw [compText_stars] at this
          simp only [List.length_replicate] at this
          rwa [show x.p + 1 + k = x.p + (k + 1) by omega]
        cases ts' with
        | nil =>
          have hq0 : ch pat (x.p + 1 + k) = some 0 ∨ ch pat (x.p + 1 + k) = some 47 := by
            rcases hC.pt with hP | ⟨Pt', hP⟩
            · left; rw [hq, hP]; rfl
            · right; rw [hq, hP]; rfl
          refine .go [⟨x.p + 1 + k, x.a + (y :: s).length, [], []⟩] ?_ ?_ ?_ (Or.inl ⟨by simp, ?_⟩)
          · rw [hst']
            rcases hq0 with hq0 | hq0
            · simp [stepStar, hscan, hscanA, hq0, AE.e]
            · simp [stepStar, hscan, hscanA, hq0, AE.e]
          · simp only [List.mem_singleton, forall_eq]
            exact hadv (y :: s) [] (by simp)
          · rw [hacc]; simp [Acc]
          · simp only [List.mem_singleton, forall_eq]; omega
        | cons t ts' =>
          obtain ⟨c', r, ht, h0, h47, h42⟩ := tok_head t (h.hwf t (by rw [hts, hk]; simp))
          have hq0 : ch pat (x.p + 1 + k) = some c' := by
            rw [hq, compText_cons, ht]; rfl
          have e1 : ¬ (c' = 0 ∨ c' = SLASH) := fun hh => hh.elim h0 h47
          have hstS : step pat addr (x.e :: rest) =
              some (pushAll (((List.range ((y :: s).length)).map fun i => (x.p + 1 + k, x.a + i)).reverse) rest x.p x.a) := by
            rw [hst']
            simp only [stepStar, hscan, hscanA, hq0, Option.bind_eq_bind, Option.bind_some, if_neg e1,
              Nat.add_sub_cancel_left]
            rfl
          have hMs := h.hM
          rw [hs] at hMs
          unfold pushAll at hstS
          split at hstS
          · rename_i hlim
            exact .limit _ _ _ hstS hlim (by simpa using hMs) (by omega)
          · let L : List AE := (List.range ((y :: s).length)).map fun i =>
              (⟨x.p + 1 + k, x.a + i, t :: ts', (y :: s).drop i⟩ : AE)
            refine .go L ?_ ?_ ?_ (Or.inr ⟨?_, ?_⟩)
            · rw [hstS]
              simp [L, AE.e, Function.comp_def]
            · intro z hz
              simp only [L, List.mem_map, List.mem_range] at hz
              obtain ⟨i, hi, rfl⟩ := hz
              have := hadv ((y :: s).take i) ((y :: s).drop i) (List.take_append_drop i (y :: s)).symm
              rwa [List.length_take, Nat.min_eq_left (by omega)] at this
            · rw [hacc]
              have hnostar : ¬ Acc (t :: ts') [] := by
                simp only [Acc]
                rintro ⟨rfl, _⟩
                exact hk' rfl
              simp only [Acc.eq_7, hnostar, false_or]
              constructor
              · rintro ⟨u, v, huv, hv, hac⟩
                refine ⟨⟨x.p + 1 + k, x.a + u.length, t :: ts', (y :: s).drop u.length⟩, ?_, ?_⟩
                · simp only [L, List.mem_map, List.mem_range]
                  refine ⟨u.length, ?_, rfl⟩
                  rw [huv]
                  have := List.length_pos_iff.mpr hv
                  simp; omega
                · simpa [huv] using hac
              · rintro ⟨z, hz, hac⟩
                simp only [L, List.mem_map, List.mem_range] at hz
                obtain ⟨i, hi, rfl⟩ := hz
                refine ⟨(y :: s).take i, (y :: s).drop i, (List.take_append_drop i (y :: s)).symm, ?_, hac⟩
                intro hh
                have := congrArg List.length hh
                simp only [List.length_drop, List.length_nil] at this
                omega
            · simp only [L, List.length_map, List.length_range]; simpa using hMs
            · intro z hz
              simp only [L, List.mem_map, List.mem_range] at hz
              obtain ⟨i, hi, rfl⟩ := hz
              exact hbr

/-- Depth invariant bounding the stack. -/
def Depth (K M : Nat) : List AE → Prop
  | [] => True
  | x :: xs => xs.length + branching x.ts * M ≤ K * M ∧ Depth K M xs

theorem depth_append {K M : Nat} {l xs : List AE} {B : Nat} (hl : ∀ y ∈ l, branching y.ts ≤ B)
    (hlen : l.length + xs.length + B * M ≤ K * M + 1) (hxs : Depth K M xs) : Depth K M (l ++ xs) := by
  induction l with
  | nil => exact hxs
  | cons y l ih =>
    simp only [List.length_cons] at hlen
    refine ⟨?_, ih (fun z hz => hl z (by simp [hz])) (by omega)⟩
    have := Nat.mul_le_mul_right M (hl y (by simp))
    show (l ++ xs).length + _ ≤ _
    rw [List.length_append]
    omega

/-- The search of one component: either the backtrack limit is exceeded (only if the component is branching enough), or
some state on the stack is accepting and the match goes on after the component, or none is and the result is "no match". -/
theorem search (pat addr Pt At : Bytes) (K M : Nat) (hC : Ctx pat addr Pt At) (hp0 : (0 : UInt8) ∉ pat) :
    ∀ n (abs : List AE), W pat addr (abs.map AE.e) < n → (∀ x ∈ abs, Valid pat addr Pt At M x) → Depth K M abs →
      (∃ po ao, Eval pat addr (abs.map AE.e) ⟨0x800, po, ao⟩ ∧ 999 < K * M) ∨
      ((∃ x ∈ abs, Acc x.ts x.s) ∧ ∀ r, Bnd pat addr Pt At r → Eval pat addr (abs.map AE.e) r) ∨
      ((∀ x ∈ abs, ¬ Acc x.ts x.s) ∧ Eval pat addr (abs.map AE.e) ⟨0, 0, 0⟩) := by
  intro n
  induction n with
  | zero => intro abs h; omega
  | succ n ih =>
    intro abs hW hv hd
    cases abs with
    | nil =>
      refine Or.inr (Or.inr ⟨by simp, .ret rfl⟩)
    | cons x xs =>
      have hgood := step_good pat addr hp0 ((x :: xs).map AE.e) (by
        intro e he
        simp only [List.mem_map] at he
        obtain ⟨z, hz, rfl⟩ := he
        exact ⟨(hv z hz).hp, (hv z hz).ha⟩)
      simp only [List.map_cons] at hgood hW ⊢
      rcases round pat addr Pt At M hC x (xs.map AE.e) (hv x (by simp)) with
        ⟨l, hstep, hlv, hacc, hbr⟩ | ⟨k, po, ao, hstep, hk, hkM, hb⟩ | ⟨hacc, heval⟩
      · rw [hstep] at hgood
        have hd' : Depth K M (l ++ xs) := by
          rcases hbr with ⟨h1, h2⟩ | ⟨h1, h2⟩
          · exact depth_append h2 (by have := hd.1; omega) hd.2
          · cases l with
            | nil => exact hd.2
            | cons z zs =>
              have hpos : 1 ≤ branching x.ts := by have := h2 z (by simp); omega
              refine depth_append (B := branching x.ts - 1) (fun y hy => by have := h2 y hy; omega) ?_ hd.2
              have h3 := hd.1
              obtain ⟨b, hb⟩ : ∃ b, branching x.ts = b + 1 := ⟨branching x.ts - 1, by omega⟩
              rw [hb, Nat.succ_mul] at h3
              rw [hb]
              simp only [Nat.add_sub_cancel]
              omega
        have := ih (l ++ xs) (by rw [List.map_append]; have := hgood.2; omega)
          (by
            intro y hy
            rcases List.mem_append.mp hy with hy | hy
            · exact hlv y hy
            · exact hv y (by simp [hy])) hd'
        rw [List.map_append] at this
        rcases this with ⟨po, ao, he, hkm⟩ | ⟨hex, he⟩ | ⟨hno, he⟩
        · exact Or.inl ⟨po, ao, .cont hstep he, hkm⟩
        · refine Or.inr (Or.inl ⟨?_, fun r hr => .cont hstep (he r hr)⟩)
          obtain ⟨y, hy, hya⟩ := hex
          rcases List.mem_append.mp hy with hy | hy
          · exact ⟨x, by simp, hacc.mpr ⟨y, hy, hya⟩⟩
          · exact ⟨y, by simp [hy], hya⟩
        · refine Or.inr (Or.inr ⟨?_, .cont hstep he⟩)
          intro y hy
          rcases List.mem_cons.mp hy with rfl | hy
          · intro hya
            obtain ⟨z, hz, hza⟩ := hacc.mp hya
            exact hno z (by simp [hz]) hza
          · exact hno y (by simp [hy])
      · refine Or.inl ⟨po, ao, .ret hstep, ?_⟩
        have h3 := hd.1
        have h4 := Nat.mul_le_mul_right M hb
        simp only [LIMIT, List.length_map] at hk
        omega
      · exact Or.inr (Or.inl ⟨⟨x, by simp, hacc⟩, heval⟩)

end Libo.Match
