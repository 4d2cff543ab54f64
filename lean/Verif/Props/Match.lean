import Verif.MatchWhole
/-!
# Properties C10-C14: address pattern matching

`oscMatch` is the model of `osc_match`; `PatSpec` is the independent specification of the pattern language.
`patText` / `addrText` give the concrete text of a pattern / an address.
-/

namespace Libo.Props
open Libo Libo.Match Libo.PatSpec

/-! Example data used for the non-vacuity examples below: the pattern `/a*b[c-e]/{x,yz}?`. -/
def exPat : List (List Tok) :=
  [[.lit 97, .star, .lit 98, .set false [.range 99 101]], [.alts [[120], [121, 122]], .any]]
/-- The address `/aQbd/yz1`. -/
def exAddr : List Bytes := [[97, 81, 98, 100], [121, 122, 49]]

theorem exPat_wf : WFPat exPat := by
  refine ⟨by decide, ?_⟩
  simp [exPat, Tok.WF, Item.WF, itemCharOk, itemsText, Item.text]
theorem exAddr_wf : WFAddr exAddr := by
  refine ⟨by decide, ?_⟩
  simp [exAddr]
example : patText exPat = b "/a*b[c-e]/{x,yz}?" := by decide +kernel
example : addrText exAddr = b "/aQbd/yz1" := by decide +kernel
example : oscMatch (patText exPat) (addrText exAddr) = some ⟨3, 17, 9⟩ := by decide +kernel

/-- Every slash-led string without NUL is the text of exactly such a component list, so quantifying over component lists
loses no address. -/
theorem addr_exhaustive (a : Bytes) (h0 : (0 : UInt8) ∉ a) (h : a.head? = some 47) :
    ∃ as, WFAddr as ∧ addrText as = a := by
  have key : ∀ (t : Bytes), (0 : UInt8) ∉ t → ∃ s as, (∀ x ∈ s :: as, ∀ c ∈ x, c ≠ 0 ∧ c ≠ 47) ∧ s ++ addrText as = t := by
    intro t
    induction t with
    | nil => intro _; exact ⟨[], [], by simp, rfl⟩
    | cons c t ih =>
      intro h0
      obtain ⟨s, as, hw, he⟩ := ih (fun h => h0 (by simp [h]))
      by_cases hc : c = 47
      · refine ⟨[], s :: as, ?_, ?_⟩
        · intro x hx
          rcases List.mem_cons.mp hx with rfl | hx
          · simp
          · exact hw x hx
        · rw [addrText_cons, he, hc]; rfl
      · refine ⟨c :: s, as, ?_, by rw [← he]; rfl⟩
        intro x hx
        rcases List.mem_cons.mp hx with rfl | hx
        · intro d hd
          rcases List.mem_cons.mp hd with rfl | hd
          · exact ⟨fun e => h0 (by simp [e]), hc⟩
          · exact hw s (by simp) d hd
        · exact hw x (by simp [hx])
  cases a with
  | nil => simp at h
  | cons c t =>
    simp at h
    obtain ⟨s, as, hw, he⟩ := key t (fun h' => h0 (by simp [h']))
    exact ⟨s :: as, ⟨by simp, hw⟩, by rw [addrText_cons, he, h]⟩

theorem mem_le_sum {l : List Nat} {n : Nat} (h : n ∈ l) : n ≤ l.sum := by
  induction l with
  | nil => simp at h
  | cons m l ih =>
    rcases List.mem_cons.mp h with rfl | h
    · simp
    · have := ih h; simp; omega

/-- **C10 (soundness).**  A reported complete match is a match of the pattern language, component by component. -/
theorem C10_match_sound (ps : List (List Tok)) (as : List Bytes) (hp : WFPat ps) (ha : WFAddr as) (r : Res)
    (hr : oscMatch (patText ps) (addrText as) = some r) (h3 : r.code = 3) : AllMatch ps as := by
  obtain ⟨r', hr', h⟩ := oscMatch_out ps as
    ((ps.map branching).sum) (((ps.map fun ts => (ts.map Tok.width).sum).sum) + (as.map List.length).sum) hp ha
    (fun ts h => mem_le_sum (List.mem_map_of_mem h))
    (fun ts h t ht => by
      have h1 : t.width ≤ (ts.map Tok.width).sum := mem_le_sum (List.mem_map_of_mem ht)
      have h2 : (ts.map Tok.width).sum ≤ (ps.map fun ts => (ts.map Tok.width).sum).sum :=
        mem_le_sum (List.mem_map_of_mem (f := fun ts => (ts.map Tok.width).sum) h)
      omega)
    (fun s h => by
      have : s.length ≤ (as.map List.length).sum := mem_le_sum (List.mem_map_of_mem h)
      omega)
  rw [hr] at hr'
  cases hr'
  rcases h with ⟨h, _⟩ | h
  · omega
  · cases h with
    | both hz => exact zip_sound hz
    | patternDone => simp at h3
    | addressDone => simp at h3
    | no => simp at h3

example : AllMatch exPat exAddr :=
  C10_match_sound exPat exAddr exPat_wf exAddr_wf ⟨3, 17, 9⟩ (by decide +kernel) rfl

/-- **C11 (completeness), full statement** as the English claim has it: every well-formed pattern that describes the
address is reported as a complete match, unless the backtrack limit is exceeded. -/
def C11_full : Prop :=
  ∀ (ps : List (List Tok)) (as : List Bytes), WFPat ps → WFAddr as → AllMatch ps as →
    ∃ r, oscMatch (patText ps) (addrText as) = some r ∧ (r.code = 3 ∨ r.code = 0x800)

/-- The full statement is false for the code: `/a{,b}` describes `/a`, but the matcher reports no match
(an alternative cannot be empty at the end of a component). -/
theorem C11_full_fails : ¬ C11_full := by
  intro h
  have hm : AllMatch [[.lit 97, .alts [[], [98]]]] [[97]] := by
    refine .cons (Or.inr (.lit ?_)) .nil
    exact Matches.alts (u := []) (by simp) .nil
  obtain ⟨r, hr, h1⟩ := h [[.lit 97, .alts [[], [98]]]] [[97]]
    ⟨by simp, by simp [Tok.WF]⟩ ⟨by simp, by simp⟩ hm
  have : oscMatch (patText [[.lit 97, .alts [[], [98]]]]) (addrText [[97]]) = some ⟨0, 0, 0⟩ := by decide +kernel
  rw [this] at hr
  cases hr
  simp at h1

/-- **C11 (completeness), what holds**: as the full statement for patterns without empty alternatives.  Moreover the
backtrack limit is not hit when (branching tokens per component) × (longest address component or alternative list) is at
most 999.  Missing with respect to `C11_full`: patterns with an empty alternative such as `{,b}`. -/
theorem C11_match_complete_partial (ps : List (List Tok)) (as : List Bytes) (hp : WFPat ps) (ha : WFAddr as)
    (hn : ∀ ts ∈ ps, ∀ t ∈ ts, t.NonNull) (hm : AllMatch ps as)
    (K M : Nat) (hK : ∀ ts ∈ ps, branching ts ≤ K) (hW : ∀ ts ∈ ps, ∀ t ∈ ts, t.width ≤ M)
    (hM : ∀ s ∈ as, s.length ≤ M) :
    ∃ r, oscMatch (patText ps) (addrText as) = some r ∧
      (r = ⟨3, (patText ps).length, (addrText as).length⟩ ∨ (r.code = 0x800 ∧ 999 < K * M)) := by
  obtain ⟨r, hr, h⟩ := oscMatch_out ps as K M hp ha hK hW hM
  refine ⟨r, hr, ?_⟩
  rcases h with h | h
  · exact Or.inr h
  · left
    have hz := zip_complete hm hn
    cases h with
    | both _ => rfl
    | patternDone as1 as2 he hne hz' =>
      exfalso
      have h1 := zip_length hz; have h2 := zip_length hz'
      rw [he] at h1
      have := List.length_pos_iff.mpr hne
      simp at h1; omega
    | addressDone ps1 ps2 he hne hz' =>
      exfalso
      have h1 := zip_length hz; have h2 := zip_length hz'
      rw [he] at h1
      have := List.length_pos_iff.mpr hne
      simp at h1; omega
    | no h1 _ => exact absurd ⟨as, [], by simp, hz⟩ h1

theorem exPat_nonnull : ∀ ts ∈ exPat, ∀ t ∈ ts, t.NonNull := by simp [exPat, Tok.NonNull]
theorem exPat_matches : AllMatch exPat exAddr :=
  C10_match_sound exPat exAddr exPat_wf exAddr_wf ⟨3, 17, 9⟩ (by decide +kernel) rfl
example : ∃ r, oscMatch (patText exPat) (addrText exAddr) = some r ∧
    (r = ⟨3, (patText exPat).length, (addrText exAddr).length⟩ ∨ (r.code = 0x800 ∧ 999 < 1 * 4)) :=
  C11_match_complete_partial exPat exAddr exPat_wf exAddr_wf exPat_nonnull exPat_matches 1 4
    (by decide) (by decide) (by decide)

/-- Soundness and completeness together: for patterns without empty alternatives and moderate branching, a complete match
is reported exactly for the described addresses. -/
theorem C11_match_iff_partial (ps : List (List Tok)) (as : List Bytes) (hp : WFPat ps) (ha : WFAddr as)
    (hn : ∀ ts ∈ ps, ∀ t ∈ ts, t.NonNull)
    (K M : Nat) (hK : ∀ ts ∈ ps, branching ts ≤ K) (hW : ∀ ts ∈ ps, ∀ t ∈ ts, t.width ≤ M)
    (hM : ∀ s ∈ as, s.length ≤ M) (hKM : K * M ≤ 999) :
    (∃ r, oscMatch (patText ps) (addrText as) = some r ∧ r.code = 3) ↔ AllMatch ps as := by
  constructor
  · rintro ⟨r, hr, h3⟩
    exact C10_match_sound ps as hp ha r hr h3
  · intro hm
    obtain ⟨r, hr, h⟩ := C11_match_complete_partial ps as hp ha hn hm K M hK hW hM
    refine ⟨r, hr, ?_⟩
    rcases h with h | h
    · rw [h]
    · omega

example : (∃ r, oscMatch (patText exPat) (addrText exAddr) = some r ∧ r.code = 3) ↔ AllMatch exPat exAddr :=
  C11_match_iff_partial exPat exAddr exPat_wf exAddr_wf exPat_nonnull 1 4 (by decide) (by decide) (by decide) (by decide)

/-- A string without any pattern character. -/
def Plain (s : Bytes) : Prop :=
  ∀ c ∈ s, c ≠ 0 ∧ c ≠ 63 ∧ c ≠ 42 ∧ c ≠ 91 ∧ c ≠ 93 ∧ c ≠ 123 ∧ c ≠ 125

theorem plain_comps (p : Bytes) (hp : Plain p) (h : p.head? = some 47) :
    ∃ cs : List Bytes, WFAddr cs ∧ addrText cs = p ∧ patText (cs.map fun s => s.map Tok.lit) = p ∧
      WFPat (cs.map fun s => s.map Tok.lit) := by
  obtain ⟨cs, hw, he⟩ := addr_exhaustive p (fun h0 => (hp 0 h0).1 rfl) h
  refine ⟨cs, hw, he, ?_, ?_⟩
  · rw [← he]
    clear he hw
    induction cs with
    | nil => rfl
    | cons s cs ih =>
      rw [List.map_cons, patText_cons, addrText_cons, ih]
      congr 2
      simp [compText]
      induction s with
      | nil => rfl
      | cons c s ih => simp [Tok.text, ih]
  · refine ⟨by simpa using hw.1, ?_⟩
    intro ts hts t ht
    simp only [List.mem_map] at hts
    obtain ⟨s, hs, rfl⟩ := hts
    simp only [List.mem_map] at ht
    obtain ⟨c, hc, rfl⟩ := ht
    have h1 := hw.2 s hs c hc
    have h2 := hp c (by
      rw [← he]
      simp only [addrText, List.mem_flatMap, List.mem_cons]
      exact ⟨s, hs, Or.inr hc⟩)
    exact ⟨h1.1, h1.2, h2.2.1, h2.2.2.1, h2.2.2.2.1, h2.2.2.2.2.1, h2.2.2.2.2.2.1, h2.2.2.2.2.2.2⟩

theorem lits_match (s t : Bytes) : Matches (s.map Tok.lit) t ↔ s = t := by
  induction s generalizing t with
  | nil =>
    constructor
    · intro h; cases h; rfl
    · rintro rfl; exact .nil
  | cons c s ih =>
    constructor
    · intro h
      cases h with
      | lit h => rw [(ih _).mp h]
    · rintro rfl
      exact .lit ((ih _).mpr rfl)

/-- **C12.**  A pattern without special characters matches exactly the equal address.  (Addresses with a component that is
a lone star are excluded: libo lets such a component match anything.) -/
theorem C12_plain_equality (p a : Bytes) (hp : Plain p) (hps : p.head? = some 47) (ha0 : (0 : UInt8) ∉ a)
    (has : a.head? = some 47) (hstar : (42 : UInt8) ∉ a) :
    (∃ r, oscMatch p a = some r ∧ r.code = 3) ↔ p = a := by
  obtain ⟨cs, hw, he, het, hwp⟩ := plain_comps p hp hps
  obtain ⟨as, hwa, hea⟩ := addr_exhaustive a ha0 has
  have hall : ∀ (cs as : List Bytes), (∀ s ∈ as, (42 : UInt8) ∉ s) →
      (AllMatch (cs.map fun s => s.map Tok.lit) as ↔ cs = as) := by
    intro cs
    induction cs with
    | nil =>
      intro as _
      constructor
      · intro h; cases h; rfl
      · rintro rfl; exact .nil
    | cons c cs ih =>
      intro as hs
      constructor
      · intro h
        cases h with
        | cons hc hr =>
          rename_i s as
          rcases hc with hc | hc
          · exact absurd (by rw [hc]; simp) (hs s (by simp))
          · rw [(lits_match _ _).mp hc, (ih _ (fun s h => hs s (by simp [h]))).mp hr]
      · rintro rfl
        exact .cons (Or.inr ((lits_match _ _).mpr rfl)) ((ih _ (fun s h => hs s (by simp [h]))).mpr rfl)
  have hns : ∀ s ∈ as, (42 : UInt8) ∉ s := by
    intro s hs h
    apply hstar
    rw [← hea]
    simp only [addrText, List.mem_flatMap, List.mem_cons]
    exact ⟨s, hs, Or.inr h⟩
  have hiff := C11_match_iff_partial (cs.map fun s => s.map Tok.lit) as hwp hwa
    (by
      intro ts hts t ht
      simp only [List.mem_map] at hts
      obtain ⟨s, _, rfl⟩ := hts
      simp only [List.mem_map] at ht
      obtain ⟨c, _, rfl⟩ := ht
      trivial)
    0 ((as.map List.length).sum)
    (by
      intro ts hts
      simp only [List.mem_map] at hts
      obtain ⟨s, _, rfl⟩ := hts
      have : (s.map Tok.lit).filter (fun t => match t with | .star => true | .alts _ => true | _ => false) = [] := by
        rw [List.filter_eq_nil_iff]
        intro t ht
        simp only [List.mem_map] at ht
        obtain ⟨c, _, rfl⟩ := ht
        simp
      simp [branching])
    (by
      intro ts hts t ht
      simp only [List.mem_map] at hts
      obtain ⟨s, _, rfl⟩ := hts
      simp only [List.mem_map] at ht
      obtain ⟨c, _, rfl⟩ := ht
      exact Nat.zero_le _)
    (fun s h => mem_le_sum (List.mem_map_of_mem h))
    (by omega)
  rw [het, hea, hall cs as hns] at hiff
  rw [hiff, ← he, ← hea]
  constructor
  · rintro rfl; rfl
  · intro h
    have h2 : ∃ r, oscMatch p p = some r ∧ r.code = 3 := by
      have h3 := C11_match_iff_partial (cs.map fun s => s.map Tok.lit) cs hwp hw
        (by
          intro ts hts t ht
          simp only [List.mem_map] at hts
          obtain ⟨s, _, rfl⟩ := hts
          simp only [List.mem_map] at ht
          obtain ⟨c, _, rfl⟩ := ht
          trivial)
        0 ((cs.map List.length).sum)
        (by
          intro ts hts
          simp only [List.mem_map] at hts
          obtain ⟨s, _, rfl⟩ := hts
          have : (s.map Tok.lit).filter (fun t => match t with | .star => true | .alts _ => true | _ => false) = [] := by
            rw [List.filter_eq_nil_iff]
            intro t ht
            simp only [List.mem_map] at ht
            obtain ⟨c, _, rfl⟩ := ht
            simp
          simp [branching])
        (by
          intro ts hts t ht
          simp only [List.mem_map] at hts
          obtain ⟨s, _, rfl⟩ := hts
          simp only [List.mem_map] at ht
          obtain ⟨c, _, rfl⟩ := ht
          exact Nat.zero_le _)
        (fun s h => mem_le_sum (List.mem_map_of_mem h))
        (by omega)
      rw [het, he] at h3
      refine h3.mpr ((hall cs cs ?_).mpr rfl)
      intro s hs h42
      apply (hp 42 ?_).2.2.1 rfl
      rw [← he]
      simp only [addrText, List.mem_flatMap, List.mem_cons]
      exact ⟨s, hs, Or.inr h42⟩
    have h4 : ∃ r, oscMatch p a = some r ∧ r.code = 3 := by
      rw [← hea, ← h, he]; exact h2
    exact hiff.mp h4

example : (∃ r, oscMatch (b "/foo/bar") (b "/foo/bar") = some r ∧ r.code = 3) ↔ b "/foo/bar" = b "/foo/bar" :=
  C12_plain_equality _ _ (by unfold Plain; decide +kernel) (by decide +kernel) (by decide +kernel) (by decide +kernel)
    (by decide +kernel)

/-- **C13.**  What partial matches mean.  If only the pattern is consumed (code 2), the address splits at a component
boundary into a part the whole pattern describes and a non-empty rest, the reported address offset is the length of
the first part and the pattern offset is the end of the pattern.  If only the address is consumed (code 1), the pattern
splits in the same way.  If nothing is matched (code 0) both offsets are 0. -/
theorem C13_partial_boundaries (ps : List (List Tok)) (as : List Bytes) (hp : WFPat ps) (ha : WFAddr as) (r : Res)
    (hr : oscMatch (patText ps) (addrText as) = some r) :
    (r.code = 2 → ∃ as1 as2, as = as1 ++ as2 ∧ as2 ≠ [] ∧ AllMatch ps as1 ∧
        r.po = (patText ps).length ∧ r.ao = (addrText as1).length ∧ (addrText as).drop r.ao = addrText as2) ∧
    (r.code = 1 → ∃ ps1 ps2, ps = ps1 ++ ps2 ∧ ps2 ≠ [] ∧ AllMatch ps1 as ∧
        r.ao = (addrText as).length ∧ r.po = (patText ps1).length ∧ (patText ps).drop r.po = patText ps2) ∧
    (r.code = 0 → r.po = 0 ∧ r.ao = 0) := by
  obtain ⟨r', hr', h⟩ := oscMatch_out ps as
    ((ps.map branching).sum) (((ps.map fun ts => (ts.map Tok.width).sum).sum) + (as.map List.length).sum) hp ha
    (fun ts h => mem_le_sum (List.mem_map_of_mem h))
    (fun ts h t ht => by
      have h1 : t.width ≤ (ts.map Tok.width).sum := mem_le_sum (List.mem_map_of_mem ht)
      have h2 : (ts.map Tok.width).sum ≤ (ps.map fun ts => (ts.map Tok.width).sum).sum :=
        mem_le_sum (List.mem_map_of_mem (f := fun ts => (ts.map Tok.width).sum) h)
      omega)
    (fun s h => by
      have : s.length ≤ (as.map List.length).sum := mem_le_sum (List.mem_map_of_mem h)
      omega)
  rw [hr] at hr'
  cases hr'
  rcases h with ⟨h, _⟩ | h
  · omega
  · cases h with
    | both hz => simp
    | patternDone as1 as2 he hne hz =>
      have hl : (addrText as).length = (addrText as1).length + (addrText as2).length := by
        rw [he]; simp [addrText]
      have hao : (addrText as).length - (addrText as2).length = (addrText as1).length := by omega
      refine ⟨fun _ => ⟨as1, as2, he, hne, zip_sound hz, rfl, hao, ?_⟩, by simp, by simp⟩
      simp only [hao]
      rw [he]
      have : addrText (as1 ++ as2) = addrText as1 ++ addrText as2 := by simp [addrText]
      rw [this]; simp
    | addressDone ps1 ps2 he hne hz =>
      have hl : (patText ps).length = (patText ps1).length + (patText ps2).length := by
        rw [he]; simp [patText]
      have hpo : (patText ps).length - (patText ps2).length = (patText ps1).length := by omega
      refine ⟨by simp, fun _ => ⟨ps1, ps2, he, hne, zip_sound hz, rfl, hpo, ?_⟩, by simp⟩
      simp only [hpo]
      rw [he]
      have : patText (ps1 ++ ps2) = patText ps1 ++ patText ps2 := by simp [patText]
      rw [this]; simp
    | no => simp

example : oscMatch (b "/a*") (b "/abc/d/e") = some ⟨2, 3, 4⟩ ∧ oscMatch (b "/a*/q") (b "/abc") = some ⟨1, 3, 4⟩ := by
  decide +kernel

/-- The converse for partial matches: if a proper prefix of the address (in components) is described by the pattern, the
matcher reports exactly that partial match (or the backtrack limit). -/
theorem C13_pattern_complete_partial (ps : List (List Tok)) (as1 as2 : List Bytes) (hp : WFPat ps)
    (ha : WFAddr (as1 ++ as2)) (hn : ∀ ts ∈ ps, ∀ t ∈ ts, t.NonNull) (hm : AllMatch ps as1) (h2 : as2 ≠ [])
    (K M : Nat) (hK : ∀ ts ∈ ps, branching ts ≤ K) (hW : ∀ ts ∈ ps, ∀ t ∈ ts, t.width ≤ M)
    (hM : ∀ s ∈ as1 ++ as2, s.length ≤ M) :
    ∃ r, oscMatch (patText ps) (addrText (as1 ++ as2)) = some r ∧
      (r = ⟨2, (patText ps).length, (addrText as1).length⟩ ∨ (r.code = 0x800 ∧ 999 < K * M)) := by
  obtain ⟨r, hr, h⟩ := oscMatch_out ps (as1 ++ as2) K M hp ha hK hW hM
  refine ⟨r, hr, ?_⟩
  rcases h with h | h
  · exact Or.inr h
  · left
    have hz := zip_complete hm hn
    have hl := zip_length hz
    have hpos := List.length_pos_iff.mpr h2
    cases h with
    | both hz' =>
      have := zip_length hz'
      simp at this; omega
    | patternDone a1 a2 he hne hz' =>
      have := zip_length hz'
      have h3 : a1 = as1 ∧ a2 = as2 := by
        have := List.append_inj he (by omega)
        exact ⟨this.1.symm, this.2.symm⟩
      rw [h3.2]
      congr 1
      simp [addrText]
    | addressDone ps1 ps2 he hne hz' =>
      have := zip_length hz'
      rw [he] at hl
      simp at this hl; omega
    | no h1 _ => exact absurd ⟨as1, as2, rfl, hz⟩ h1

example : ∃ r, oscMatch (patText [[.lit 97, .star]]) (addrText [[97, 98, 99], [100]]) = some r ∧
    (r = ⟨2, (patText [[.lit 97, .star]]).length, (addrText [[97, 98, 99]]).length⟩ ∨ (r.code = 0x800 ∧ 999 < 1 * 3)) :=
  C13_pattern_complete_partial [[.lit 97, .star]] [[97, 98, 99]] [[100]] ⟨by simp, by simp [Tok.WF]⟩
    ⟨by simp, by simp⟩ (by simp [Tok.NonNull])
    (.cons (Or.inr (.lit (Matches.star (u := [98, 99]) .nil))) .nil) (by simp) 1 3 (by decide) (by decide) (by decide)

/-- The other converse: if the address is described by a proper prefix of the pattern (in components), the matcher reports
exactly that partial match (or the backtrack limit). -/
theorem C13_address_complete_partial (ps1 ps2 : List (List Tok)) (as : List Bytes) (hp : WFPat (ps1 ++ ps2))
    (ha : WFAddr as) (hn : ∀ ts ∈ ps1, ∀ t ∈ ts, t.NonNull) (hm : AllMatch ps1 as) (h2 : ps2 ≠ [])
    (K M : Nat) (hK : ∀ ts ∈ ps1 ++ ps2, branching ts ≤ K) (hW : ∀ ts ∈ ps1 ++ ps2, ∀ t ∈ ts, t.width ≤ M)
    (hM : ∀ s ∈ as, s.length ≤ M) :
    ∃ r, oscMatch (patText (ps1 ++ ps2)) (addrText as) = some r ∧
      (r = ⟨1, (patText ps1).length, (addrText as).length⟩ ∨ (r.code = 0x800 ∧ 999 < K * M)) := by
  obtain ⟨r, hr, h⟩ := oscMatch_out (ps1 ++ ps2) as K M hp ha hK hW hM
  refine ⟨r, hr, ?_⟩
  rcases h with h | h
  · exact Or.inr h
  · left
    have hz := zip_complete hm hn
    have hl := zip_length hz
    have hpos := List.length_pos_iff.mpr h2
    cases h with
    | both hz' =>
      have := zip_length hz'
      simp at this; omega
    | patternDone a1 a2 he hne hz' =>
      have := zip_length hz'
      rw [he] at hl
      simp at this hl; omega
    | addressDone q1 q2 he hne hz' =>
      have := zip_length hz'
      have h3 : q1 = ps1 ∧ q2 = ps2 := by
        have := List.append_inj he (by omega)
        exact ⟨this.1.symm, this.2.symm⟩
      rw [h3.2]
      congr 1
      simp [patText]
    | no _ h1 => exact absurd ⟨ps1, ps2, rfl, hz⟩ h1

example : ∃ r, oscMatch (patText ([[.lit 97, .star]] ++ [[.lit 98]])) (addrText [[97, 98, 99]]) = some r ∧
    (r = ⟨1, (patText [[.lit 97, .star]]).length, (addrText [[97, 98, 99]]).length⟩ ∨ (r.code = 0x800 ∧ 999 < 1 * 3)) :=
  C13_address_complete_partial [[.lit 97, .star]] [[.lit 98]] [[97, 98, 99]] ⟨by simp, by simp [Tok.WF]⟩
    ⟨by simp, by simp⟩ (by simp [Tok.NonNull])
    (.cons (Or.inr (.lit (Matches.star (u := [98, 99]) .nil))) .nil) (by simp) 1 3 (by decide) (by decide) (by decide)

/-- **C14 (totality).**  For every pair of C strings the matcher terminates without reading outside either string, and the
reported offsets lie inside the strings. -/
theorem C14_total (pat addr : Bytes) (hp : (0 : UInt8) ∉ pat) :
    ∃ r, oscMatch pat addr = some r ∧ r.po ≤ pat.length ∧ r.ao ≤ addr.length :=
  oscMatch_total pat addr hp

example : oscMatch (b "/{a,[b") (b "/x") = some ⟨0x300, 0, 0⟩ := by decide +kernel

/-- **C14 (leading slash).**  A pattern (address) without leading slash is reported with its own code and zero offsets. -/
theorem C14_leading_slash (pat addr : Bytes) :
    (pat.head? ≠ some 47 → oscMatch pat addr = some ⟨0x500, 0, 0⟩) ∧
    (pat.head? = some 47 → addr.head? ≠ some 47 → oscMatch pat addr = some ⟨0x600, 0, 0⟩) := by
  constructor
  · intro h
    cases pat with
    | nil => cases addr <;> rfl
    | cons c p =>
      have hc : c ≠ 47 := by simpa using h
      cases addr <;> simp [oscMatch, ch, hc]
  · intro h h'
    cases pat with
    | nil => simp at h
    | cons c p =>
      have hc : c = 47 := by simpa using h
      subst hc
      cases addr with
      | nil => rfl
      | cons d a =>
        have hd : d ≠ 47 := by simpa using h'
        simp [oscMatch, ch, hd]

example : oscMatch (b "foo") (b "/foo") = some ⟨0x500, 0, 0⟩ ∧ oscMatch (b "/foo") (b "foo") = some ⟨0x600, 0, 0⟩ := by
  decide +kernel

theorem rangeLoop_codes (pat : Bytes) (x : UInt8) (val : Bool) :
    ∀ n p r, rangeLoop pat x val n p = some r → r = 0 ∨ r = 1 ∨ r = 0x100 := by
  intro n
  induction n with
  | zero => intro p r h; simp [rangeLoop] at h
  | succ n ih =>
    intro p r h
    simp only [rangeLoop, Option.bind_eq_bind, Option.bind_eq_some_iff] at h
    obtain ⟨c, _, h⟩ := h
    split at h
    · simp at h; subst h; cases val <;> simp
    split at h
    · simp at h; subst h; simp
    simp only [Option.bind_eq_some_iff] at h
    obtain ⟨d, _, h⟩ := h
    have tail : ∀ e, (if d = DASH ∧ e ≠ 0 ∧ e ≠ SLASH ∧ e ≠ RBRACK then
          if inRange c x e then pure (if val then 1 else 0) else rangeLoop pat x val n (p + 3)
        else if c = x then pure (if val then 1 else 0) else rangeLoop pat x val n (p + 1)) = some r →
        r = 0 ∨ r = 1 ∨ r = 0x100 := by
      intro e h
      split at h
      · split at h
        · simp at h; subst h; cases val <;> simp
        · exact ih _ _ h
      · split at h
        · simp at h; subst h; cases val <;> simp
        · exact ih _ _ h
    split at h
    · simp only [Option.bind_eq_some_iff] at h
      obtain ⟨e, _, h⟩ := h
      exact tail e h
    · simp only [Option.bind_eq_some_iff] at h
      obtain ⟨e, _, h⟩ := h
      exact tail e h

theorem range_codes (pat : Bytes) (p : Nat) (x : UInt8) (r : Nat) (h : range pat p x = some r) :
    r = 0 ∨ r = 1 ∨ r = 0x100 := by
  simp only [range, Option.bind_eq_bind, Option.bind_eq_some_iff] at h
  obtain ⟨c, _, d, _, h⟩ := h
  split at h
  · simp at h; subst h; split <;> simp
  · exact rangeLoop_codes _ _ _ _ _ _ h

/-- What a returning round can return. -/
def CodeOk (r : Res) : Prop :=
  r.code = 3 ∨ r.code = 2 ∨ r.code = 1 ∨ r.code = 0x800 ∨
  ((r.code = 0 ∨ r.code = 0x100 ∨ r.code = 0x200 ∨ r.code = 0x300 ∨ r.code = 0x400 ∨ r.code = 0x500 ∨ r.code = 0x600) ∧
    r.po = 0 ∧ r.ao = 0)

theorem step_codes (pat addr : Bytes) (st) (r : Res) (h : step pat addr st = some (.ret r)) : CodeOk r := by
  cases st with
  | nil => simp [step] at h; subst h; simp [CodeOk]
  | cons e rest =>
    obtain ⟨p, a⟩ := e
    simp only [step, Option.bind_eq_bind, Option.bind_eq_some_iff] at h
    obtain ⟨pc, _, ac, _, h⟩ := h
    split at h
    · simp only [stepEnd, Option.bind_eq_bind, Option.bind_eq_some_iff] at h
      obtain ⟨q, _, c, _, h⟩ := h
      split at h
      · simp at h; subst h; simp [CodeOk]
      split at h
      · simp at h; subst h; simp [CodeOk]
      · simp at h
    split at h
    · unfold stepSlash at h
      split at h
      · simp at h
      split at h
      · simp at h; subst h; simp [CodeOk]
      split at h
      · simp only [Option.bind_eq_bind, Option.bind_eq_some_iff] at h
        obtain ⟨q, _, h⟩ := h
        simp at h
      · simp at h
    simp only [Option.bind_eq_some_iff] at h
    obtain ⟨ls, _, h⟩ := h
    split at h
    · simp only [Option.bind_eq_some_iff] at h
      obtain ⟨_, _, _, _, h⟩ := h
      simp at h
    unfold stepChar at h
    split at h
    · simp at h
    split at h
    · simp at h
    split at h
    · simp at h
    split at h
    · simp only [stepRange, Option.bind_eq_bind, Option.bind_eq_some_iff] at h
      obtain ⟨rr, hrr, h⟩ := h
      have := range_codes _ _ _ _ hrr
      split at h
      · simp at h
      split at h
      · simp only [Option.bind_eq_some_iff] at h
        obtain ⟨_, _, _, _, _, _, h⟩ := h
        split at h
        · simp at h
        · simp at h; subst h; simp [CodeOk]
      · simp at h; subst h
        rcases this with h1 | h1 | h1
        · contradiction
        · contradiction
        · simp [CodeOk, h1]
    split at h
    · simp only [stepBrace, Option.bind_eq_bind, Option.bind_eq_some_iff] at h
      obtain ⟨_, _, _, _, h⟩ := h
      split at h
      · simp only [Option.bind_eq_some_iff] at h
        obtain ⟨_, _, h⟩ := h
        simp only [pushAll, Option.pure_def, Option.some.injEq] at h
        split at h
        · simp at h; subst h; simp [CodeOk]
        · simp at h
      · simp at h; subst h; simp [CodeOk]
    split at h
    · simp at h; subst h; simp [CodeOk]
    split at h
    · simp at h; subst h; simp [CodeOk]
    split at h
    · simp only [stepStar, Option.bind_eq_bind, Option.bind_eq_some_iff] at h
      obtain ⟨_, _, _, _, _, _, h⟩ := h
      split at h
      · simp at h
      · simp only [pushAll, Option.pure_def, Option.some.injEq] at h
        split at h
        · simp at h; subst h; simp [CodeOk]
        · simp at h
    split at h
    · simp at h
    · simp at h

/-- **C14 (result codes).**  For every pair of strings the result is one of the documented codes; every error other than
the backtrack limit, and "no match", comes with zero offsets. -/
theorem C14_codes (pat addr : Bytes) (r : Res) (h : oscMatch pat addr = some r) : CodeOk r := by
  simp only [oscMatch, Option.bind_eq_bind, Option.bind_eq_some_iff] at h
  obtain ⟨pc, _, ac, _, h⟩ := h
  split at h
  · simp at h; subst h; simp [CodeOk]
  split at h
  · simp at h; subst h; simp [CodeOk]
  have : ∀ n st r, run pat addr n st = some r → CodeOk r := by
    intro n
    induction n with
    | zero => intro st r h; simp [run] at h
    | succ n ih =>
      intro st r h
      unfold run at h
      split at h
      · simp at h
      · rename_i r' hs
        simp at h; subst h
        exact step_codes pat addr st r' hs
      · exact ih _ _ h
  exact this _ _ _ h

example : CodeOk ⟨0x400, 0, 0⟩ := C14_codes (b "/a}") (b "/ab") _ (by decide +kernel)

end Libo.Props
