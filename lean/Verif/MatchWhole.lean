import Verif.MatchSearch
/-!
# From one component to the whole address (helper lemmas)
-/

namespace Libo.Match
open Libo.PatSpec

/-- Pairwise correspondence of components. -/
inductive Zip (R : List Tok → Bytes → Prop) : List (List Tok) → List Bytes → Prop where
  | nil : Zip R [] []
  | cons {ts s ps as} : R ts s → Zip R ps as → Zip R (ts :: ps) (s :: as)

/-- What the matcher accepts for one component. -/
def CA (ts : List Tok) (s : Bytes) : Prop := s = [42] ∨ Acc ts s

theorem tok_chars (t : Tok) (h : t.WF) : ∀ c ∈ t.text, c ≠ 0 ∧ c ≠ 47 := by
  cases t with
  | lit c => intro d hd; simp [Tok.text] at hd; subst hd; exact ⟨h.1, h.2.1⟩
  | any => intro d hd; simp [Tok.text] at hd; subst hd; decide
  | star => intro d hd; simp [Tok.text] at hd; subst hd; decide
  | set neg items =>
    intro d hd
    simp only [Tok.text, List.mem_cons, List.mem_append, List.not_mem_nil, or_false] at hd
    rcases hd with rfl | (hd | hd) | rfl
    · decide
    · split at hd
      · simp at hd; subst hd; decide
      · simp at hd
    · have := itemsText_chars h.2.1 d hd
      exact ⟨this.1, this.2.1⟩
    · decide
  | alts as =>
    intro d hd
    simp only [Tok.text, List.mem_cons] at hd
    rcases hd with rfl | hd
    · decide
    · obtain ⟨m, hm, hm'⟩ := altsText_split as h.1 h.2
      rw [hm] at hd
      simp at hd
      rcases hd with hd | rfl
      · have := hm' d hd
        simp [inBrace] at this
        exact ⟨this.2, this.1.2⟩
      · decide

theorem compText_chars {ts : List Tok} (h : ∀ t ∈ ts, t.WF) : ∀ c ∈ compText ts, c ≠ 0 ∧ c ≠ 47 := by
  intro c hc
  simp only [compText, List.mem_flatMap] at hc
  obtain ⟨t, ht, hc⟩ := hc
  exact tok_chars t (h t ht) c hc

theorem patText_no_zero {ps : List (List Tok)} (h : ∀ ts ∈ ps, ∀ t ∈ ts, t.WF) : (0 : UInt8) ∉ patText ps := by
  intro h0
  simp only [patText, List.mem_flatMap, List.mem_cons] at h0
  obtain ⟨ts, hts, h0⟩ := h0
  rcases h0 with h0 | h0
  · exact absurd h0 (by decide)
  · exact (compText_chars (h ts hts) 0 h0).1 rfl

theorem patText_cons (ts ps) : patText (ts :: ps) = 47 :: (compText ts ++ patText ps) := by simp [patText]
theorem addrText_cons (s as) : addrText (s :: as) = 47 :: (s ++ addrText as) := by simp [addrText]

theorem patText_ctx (ps : List (List Tok)) : patText ps = [] ∨ ∃ r, patText ps = 47 :: r := by
  cases ps with
  | nil => left; rfl
  | cons ts ps => right; exact ⟨_, patText_cons ts ps⟩

theorem addrText_ctx (as : List Bytes) : addrText as = [] ∨ ∃ r, addrText as = 47 :: r := by
  cases as with
  | nil => left; rfl
  | cons s as => right; exact ⟨_, addrText_cons s as⟩

/-- The result for remaining components `ps` and `as`, in terms of component correspondence. -/
inductive Out (pl al : Nat) (ps : List (List Tok)) (as : List Bytes) : Res → Prop where
  | both : Zip CA ps as → Out pl al ps as ⟨3, pl, al⟩
  | patternDone (as1 as2) : as = as1 ++ as2 → as2 ≠ [] → Zip CA ps as1 →
      Out pl al ps as ⟨2, pl, al - (addrText as2).length⟩
  | addressDone (ps1 ps2) : ps = ps1 ++ ps2 → ps2 ≠ [] → Zip CA ps1 as →
      Out pl al ps as ⟨1, pl - (patText ps2).length, al⟩
  | no : (¬ ∃ as1 as2, as = as1 ++ as2 ∧ Zip CA ps as1) → (¬ ∃ ps1 ps2, ps = ps1 ++ ps2 ∧ Zip CA ps1 as) →
      Out pl al ps as ⟨0, 0, 0⟩

theorem out_cons {pl al : Nat} {ts s ps as r} (h : CA ts s) (ho : Out pl al ps as r) :
    Out pl al (ts :: ps) (s :: as) r := by
  cases ho with
  | both hz => exact .both (.cons h hz)
  | patternDone as1 as2 he hn hz => exact .patternDone (s :: as1) as2 (by rw [he]; rfl) hn (.cons h hz)
  | addressDone ps1 ps2 he hn hz => exact .addressDone (ts :: ps1) ps2 (by rw [he]; rfl) hn (.cons h hz)
  | no h1 h2 =>
    refine .no ?_ ?_
    · rintro ⟨as1, as2, he, hz⟩
      cases hz with
      | cons _ hz =>
        simp at he
        exact h1 ⟨_, as2, he.2, hz⟩
    · rintro ⟨ps1, ps2, he, hz⟩
      cases hz with
      | cons _ hz =>
        simp at he
        exact h2 ⟨_, ps2, he.2, hz⟩

theorem out_no {pl al : Nat} {ts s ps as} (h : ¬ CA ts s) : Out pl al (ts :: ps) (s :: as) ⟨0, 0, 0⟩ := by
  refine .no ?_ ?_
  · rintro ⟨as1, as2, he, hz⟩
    cases hz with
    | cons hc hz => simp at he; rw [← he.1] at hc; exact h hc
  · rintro ⟨ps1, ps2, he, hz⟩
    cases hz with
    | cons hc hz => simp at he; rw [← he.1] at hc; exact h hc

theorem whole (pat addr : Bytes) (K M : Nat) (hp0 : (0 : UInt8) ∉ pat) :
    ∀ (ps : List (List Tok)) (as : List Bytes) (i j : Nat), ps ≠ [] → as ≠ [] →
      (∀ ts ∈ ps, ∀ t ∈ ts, t.WF) → (∀ s ∈ as, ∀ c ∈ s, c ≠ 0 ∧ c ≠ 47) →
      (∀ ts ∈ ps, branching ts ≤ K) → (∀ ts ∈ ps, ∀ t ∈ ts, t.width ≤ M) → (∀ s ∈ as, s.length ≤ M) →
      i ≤ pat.length → j ≤ addr.length → pat.drop i = patText ps → addr.drop j = addrText as →
      (∃ po ao, Eval pat addr [(i, j)] ⟨0x800, po, ao⟩ ∧ 999 < K * M) ∨
      (∃ r, Eval pat addr [(i, j)] r ∧ Out pat.length addr.length ps as r) := by
  intro ps
  induction ps with
  | nil => intro as i j h; exact absurd rfl h
  | cons ts ps ih =>
    intro as i j _ has hwp hwa hK hW hM hi hj hdp hda
    cases as with
    | nil => exact absurd rfl has
    | cons s as =>
    rw [patText_cons] at hdp
    rw [addrText_cons] at hda
    have hlp := le_of_drop (u := [47]) hi hdp
    have hla := le_of_drop (u := [47]) hj hda
    simp at hlp hla
    have hdp1 := drop_add (u := [47]) hdp
    have hda1 := drop_add (u := [47]) hda
    simp only [List.length_cons, List.length_nil, Nat.zero_add] at hdp1 hda1
    have hci : ch pat i = some 47 := by rw [ch_drop0 hi, hdp]; rfl
    have hcj : ch addr j = some 47 := by rw [ch_drop0 hj, hda]; rfl
    have hstep1 : step pat addr [(i, j)] = some (.cont [(i + 1, j + 1)]) := by
      simp [step, hci, hcj, stepSlash]
    have hC : Ctx pat addr (patText ps) (addrText as) := ⟨patText_ctx ps, addrText_ctx as⟩
    have hwts := hwp ts (by simp)
    have hws := hwa s (by simp)
    -- what happens once the component is done
    have hdp2 := drop_add hdp1
    have hda2 := drop_add hda1
    have hbnd : CA ts s → (∃ po ao, Bnd pat addr (patText ps) (addrText as) ⟨0x800, po, ao⟩ ∧ 999 < K * M) ∨
        (∃ r, Bnd pat addr (patText ps) (addrText as) r ∧ Out pat.length addr.length (ts :: ps) (s :: as) r) := by
      intro hca
      cases ps with
      | nil =>
        cases as with
        | nil => exact Or.inr ⟨_, rfl, .both (.cons hca .nil)⟩
        | cons s' as' =>
          right
          refine ⟨⟨2, pat.length, addr.length - (addrText (s' :: as')).length⟩, ?_, ?_⟩
          · rw [addrText_cons]; rfl
          · exact .patternDone [s] (s' :: as') rfl (by simp) (.cons hca .nil)
      | cons ts' ps' =>
        cases as with
        | nil =>
          right
          refine ⟨⟨1, pat.length - (patText (ts' :: ps')).length, addr.length⟩, ?_, ?_⟩
          · rw [patText_cons]; rfl
          · exact .addressDone [ts] (ts' :: ps') rfl (by simp) (.cons hca .nil)
        | cons s' as' =>
          have hi' : i + 1 + (compText ts).length = pat.length - (patText (ts' :: ps')).length := by omega
          have hj' : j + 1 + s.length = addr.length - (addrText (s' :: as')).length := by omega
          have := ih (s' :: as') (i + 1 + (compText ts).length) (j + 1 + s.length) (by simp) (by simp)
            (fun x hx => hwp x (by simp [hx])) (fun x hx => hwa x (by simp [hx]))
            (fun x hx => hK x (by simp [hx])) (fun x hx => hW x (by simp [hx])) (fun x hx => hM x (by simp [hx]))
            (by omega) (by omega) hdp2 hda2
          -- the boundary evaluation starts one step later
          have hnext : ∀ r, Eval pat addr [(i + 1 + (compText ts).length, j + 1 + s.length)] r →
              Bnd pat addr (patText (ts' :: ps')) (addrText (s' :: as')) r := by
            intro r hr
            have c1 : ch pat (i + 1 + (compText ts).length) = some 47 := by
              rw [ch_drop0 (by omega), hdp2, patText_cons]; rfl
            have c2 : ch addr (j + 1 + s.length) = some 47 := by
              rw [ch_drop0 (by omega), hda2, addrText_cons]; rfl
            have hst : step pat addr [(i + 1 + (compText ts).length, j + 1 + s.length)] =
                some (.cont [(i + 1 + (compText ts).length + 1, j + 1 + s.length + 1)]) := by
              simp [step, c1, c2, stepSlash]
            have hE : Eval pat addr [(i + 1 + (compText ts).length + 1, j + 1 + s.length + 1)] r := by
              cases hr with
              | ret h1 => rw [hst] at h1; simp at h1
              | cont h1 h2 => rw [hst] at h1; simp at h1; rw [h1]; exact h2
            rw [hi', hj'] at hE
            rw [patText_cons, addrText_cons] at hE ⊢
            exact hE
          rcases this with ⟨po, ao, he, hkm⟩ | ⟨r, he, ho⟩
          · exact Or.inl ⟨po, ao, hnext _ he, hkm⟩
          · exact Or.inr ⟨r, hnext r he, out_cons hca ho⟩
    by_cases hstar : s = [42]
    · -- lone star in the address: the component is skipped on both sides
      subst hstar
      have hca1 : ch addr (j + 1) = some 42 := by rw [ch_drop0 (by omega), hda1]; rfl
      have hca2 : ch addr (j + 2) = some 47 ∨ ch addr (j + 2) = some 0 := by
        have : ch addr (j + 1 + 1) = (addrText as ++ [0])[0]? := by
          rw [ch_drop (by omega), hda1]; simp
        rcases addrText_ctx as with h | ⟨r, h⟩
        · right; rw [this, h]; rfl
        · left; rw [this, h]; rfl
      have hls : loneStar addr (j + 1) 42 = some true := by
        rcases hca2 with h | h
        · simp [loneStar, hcj, h, STAR]
        · simp [loneStar, hcj, h, STAR]
      have hs1 : scan inComp addr (j + 1) = some (j + 1 + 1) := by
        have := scan_eq (f := inComp) (u := [42]) (r := addrText as) (s := addr) (p := j + 1) (by omega) hda1
          (by simp; decide) (by
            intro c r' he
            rcases addrText_ctx as with h | ⟨r, h⟩
            · rw [h] at he; simp at he
            · rw [h] at he; simp at he; rw [← he.1]; decide)
        simpa using this
      have hs2 : scan inComp pat (i + 1) = some (i + 1 + (compText ts).length) := by
        refine scan_eq (by omega) hdp1 ?_ ?_
        · intro c hc
          have := compText_chars hwts c hc
          simp [inComp, this]
        · intro c r' he
          rcases patText_ctx ps with h | ⟨r, h⟩
          · rw [h] at he; simp at he
          · rw [h] at he; simp at he; rw [← he.1]; decide
      obtain ⟨pc, hpc⟩ := ch_some (s := pat) (i := i + 1) (by omega)
      have hstep2 : step pat addr [(i + 1, j + 1)] =
          some (.cont [(i + 1 + (compText ts).length, j + 1 + 1)]) := by
        simp [step, hpc, hca1, hls, hs1, hs2, SLASH]
      have hv : Valid pat addr (patText ps) (addrText as) M ⟨i + 1 + (compText ts).length, j + 1 + 1, [], []⟩ := by
        constructor
        · simp; omega
        · simpa [compText] using hdp2
        · simp
        · simp at hla ⊢; omega
        · simpa using hda2
        · simp
        · left; simp
        · simp
        · simp
      have hE : ∀ r, Bnd pat addr (patText ps) (addrText as) r → Eval pat addr [(i, j)] r := by
        intro r hr
        exact .cont hstep1 (.cont hstep2 (bnd_eval hC hv rfl rfl [] hr))
      rcases hbnd (Or.inl rfl) with ⟨po, ao, he, hkm⟩ | ⟨r, he, ho⟩
      · exact Or.inl ⟨po, ao, hE _ he, hkm⟩
      · exact Or.inr ⟨r, hE r he, ho⟩
    · -- ordinary component: run the search
      have hv : Valid pat addr (patText ps) (addrText as) M ⟨i + 1, j + 1, ts, s⟩ := by
        constructor
        · simp; omega
        · exact hdp1
        · exact hwts
        · simp at hla ⊢; omega
        · exact hda1
        · exact hws
        · left; exact hstar
        · exact hM s (by simp)
        · exact hW ts (by simp)
      have hdep : Depth K M [⟨i + 1, j + 1, ts, s⟩] := by
        refine ⟨?_, trivial⟩
        have := Nat.mul_le_mul_right M (hK ts (by simp))
        simpa using this
      rcases search pat addr (patText ps) (addrText as) K M hC hp0 _ [⟨i + 1, j + 1, ts, s⟩] (Nat.lt_succ_self _)
        (by simpa using hv) hdep with ⟨po, ao, he, hkm⟩ | ⟨hex, he⟩ | ⟨hno, he⟩
      · exact Or.inl ⟨po, ao, .cont hstep1 he, hkm⟩
      · have hac : Acc ts s := by simpa using hex
        rcases hbnd (Or.inr hac) with ⟨po, ao, hb, hkm⟩ | ⟨r, hb, ho⟩
        · exact Or.inl ⟨po, ao, .cont hstep1 (he _ hb), hkm⟩
        · exact Or.inr ⟨r, .cont hstep1 (he r hb), ho⟩
      · have hac : ¬ CA ts s := by
          rintro (h | h)
          · exact hstar h
          · exact hno ⟨i + 1, j + 1, ts, s⟩ (by simp) h
        exact Or.inr ⟨_, .cont hstep1 he, out_no hac⟩

theorem oscMatch_total (pat addr : Bytes) (hp0 : (0 : UInt8) ∉ pat) :
    ∃ r, oscMatch pat addr = some r ∧ r.po ≤ pat.length ∧ r.ao ≤ addr.length := by
  obtain ⟨pc, hpc⟩ := ch_some (s := pat) (Nat.zero_le _)
  obtain ⟨ac, hac⟩ := ch_some (s := addr) (Nat.zero_le _)
  simp only [oscMatch, hpc, hac, Option.bind_eq_bind, Option.bind_some]
  split
  · exact ⟨_, rfl, Nat.zero_le _, Nat.zero_le _⟩
  split
  · exact ⟨_, rfl, Nat.zero_le _, Nat.zero_le _⟩
  · apply run_total pat addr hp0
    · intro e he
      simp at he
      subst he
      exact ⟨Nat.zero_le _, Nat.zero_le _⟩
    · simp [W, wt, fuel]

/-- Complete description of `osc_match` on well-formed input. -/
theorem oscMatch_out (ps : List (List Tok)) (as : List Bytes) (K M : Nat) (hp : WFPat ps) (ha : WFAddr as)
    (hK : ∀ ts ∈ ps, branching ts ≤ K) (hW : ∀ ts ∈ ps, ∀ t ∈ ts, t.width ≤ M) (hM : ∀ s ∈ as, s.length ≤ M) :
    ∃ r, oscMatch (patText ps) (addrText as) = some r ∧
      ((r.code = 0x800 ∧ 999 < K * M) ∨ Out (patText ps).length (addrText as).length ps as r) := by
  have hp0 := patText_no_zero hp.2
  obtain ⟨r, hr, _⟩ := oscMatch_total (patText ps) (addrText as) hp0
  refine ⟨r, hr, ?_⟩
  obtain ⟨ts, ps', rfl⟩ : ∃ ts ps', ps = ts :: ps' := by
    cases ps with
    | nil => exact absurd rfl hp.1
    | cons a b => exact ⟨a, b, rfl⟩
  obtain ⟨s, as', rfl⟩ : ∃ s as', as = s :: as' := by
    cases as with
    | nil => exact absurd rfl ha.1
    | cons a b => exact ⟨a, b, rfl⟩
  have h1 : ch (patText (ts :: ps')) 0 = some 47 := by rw [patText_cons]; rfl
  have h2 : ch (addrText (s :: as')) 0 = some 47 := by rw [addrText_cons]; rfl
  have hrun : run (patText (ts :: ps')) (addrText (s :: as')) (fuel (patText (ts :: ps')) (addrText (s :: as'))) [(0, 0)] = some r := by
    simpa [oscMatch, h1, h2] using hr
  rcases whole (patText (ts :: ps')) (addrText (s :: as')) K M hp0 (ts :: ps') (s :: as') 0 0 hp.1 ha.1 hp.2 ha.2 hK hW hM
    (Nat.zero_le _) (Nat.zero_le _) rfl rfl with ⟨po, ao, he, hkm⟩ | ⟨r', he, ho⟩
  · left
    have := run_of_eval he _ _ hrun
    rw [this]
    exact ⟨rfl, hkm⟩
  · right
    have := run_of_eval he _ _ hrun
    rw [this]; exact ho

theorem zip_sound {ps as} (h : Zip CA ps as) : AllMatch ps as := by
  induction h with
  | nil => exact .nil
  | cons hc _ ih =>
    refine .cons ?_ ih
    rcases hc with h | h
    · exact Or.inl h
    · exact Or.inr h.sound

theorem zip_complete {ps as} (h : AllMatch ps as) : (∀ ts ∈ ps, ∀ t ∈ ts, t.NonNull) → Zip CA ps as := by
  induction h with
  | nil => intro _; exact .nil
  | cons hc _ ih =>
    intro hn
    refine .cons ?_ (ih (fun ts hts => hn ts (by simp [hts])))
    rcases hc with h | h
    · exact Or.inl h
    · exact Or.inr (Acc.complete h (hn _ (by simp)))

theorem zip_length {R ps as} (h : Zip R ps as) : ps.length = as.length := by
  induction h with
  | nil => rfl
  | cons _ _ ih => simp [ih]

end Libo.Match
