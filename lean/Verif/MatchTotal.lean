import Verif.Match
/-!
# `osc_match` never reads out of bounds and always terminates

Invariant: every state on the backtrack stack lies inside both strings.  Every round either returns or strictly
decreases a natural-number weight of the stack.
-/

namespace Libo.Match

theorem ch_some {s : Bytes} {i : Nat} (h : i ≤ s.length) : ∃ c, ch s i = some c :=
  ⟨_, List.getElem?_eq_getElem (by simp; omega)⟩

theorem ch_lt {s : Bytes} {i : Nat} {c : UInt8} (h : ch s i = some c) (hc : c ≠ 0) : i < s.length := by
  unfold ch at h
  obtain ⟨h1, h2⟩ := List.getElem?_eq_some_iff.mp h
  simp at h1
  by_cases hi : i < s.length
  · exact hi
  · exfalso
    have : i = s.length := by omega
    subst this
    simp at h2
    exact hc h2.symm

theorem ch_end (s : Bytes) : ch s s.length = some 0 := by simp [ch]

theorem ch_getElem {s : Bytes} {i : Nat} (h : i < s.length) : ch s i = some s[i] := by
  simp [ch, List.getElem?_append_left h]

theorem ch_ne_zero {s : Bytes} (h0 : (0 : UInt8) ∉ s) {i : Nat} {c : UInt8} (hi : i < s.length)
    (h : ch s i = some c) : c ≠ 0 := by
  rw [ch_getElem hi] at h
  rintro rfl
  simp at h
  exact h0 (h ▸ List.getElem_mem hi)

theorem scan_spec (f : UInt8 → Bool) {s : Bytes} {i : Nat} (h : i ≤ s.length) :
    ∃ j, scan f s i = some j ∧ i ≤ j ∧ j ≤ s.length := by
  refine ⟨_, if_pos h, by omega, ?_⟩
  have := (List.takeWhile_sublist f (l := s.drop i)).length_le
  simp at this
  omega

/-- A scan whose test holds at the start advances. -/
theorem scan_advance (f : UInt8 → Bool) {s : Bytes} {i j : Nat} {c : UInt8} (hi : i < s.length)
    (hc : ch s i = some c) (hf : f c = true) (h : scan f s i = some j) : i < j := by
  simp only [scan, Nat.le_of_lt hi, if_true, Option.some.injEq] at h
  rw [ch_getElem hi] at hc
  rw [List.drop_eq_getElem_cons hi, List.takeWhile_cons] at h
  simp at hc
  rw [hc, hf] at h
  simp at h
  omega

theorem rangeLoop_total (pat : Bytes) (x : UInt8) (val : Bool) :
    ∀ n p, p ≤ pat.length → pat.length + 1 ≤ n + p → ∃ r, rangeLoop pat x val n p = some r := by
  intro n
  induction n with
  | zero => intro p h1 h2; omega
  | succ n ih =>
    intro p h1 h2
    obtain ⟨c, hc⟩ := ch_some h1
    simp only [rangeLoop, hc, Option.bind_eq_bind, Option.bind_some]
    split
    · exact ⟨_, rfl⟩
    split
    · exact ⟨_, rfl⟩
    rename_i hne
    have hp : p < pat.length := ch_lt hc (fun h => hne (Or.inl h))
    obtain ⟨d, hd⟩ := ch_some (s := pat) (i := p + 1) (by omega)
    simp only [hd, Option.bind_some]
    by_cases hdd : d = DASH
    · have hp1 : p + 1 < pat.length := ch_lt hd (by rw [hdd]; decide)
      obtain ⟨e, he⟩ := ch_some (s := pat) (i := p + 2) (by omega)
      simp only [hdd, if_true, he, Option.bind_some]
      split
      · rename_i hh
        split
        · exact ⟨_, rfl⟩
        · have hp2 : p + 2 < pat.length := ch_lt he hh.2.1
          exact ih _ (by omega) (by omega)
      · split
        · exact ⟨_, rfl⟩
        · exact ih _ (by omega) (by omega)
    · simp only [hdd, if_false, Option.pure_def, Option.bind_some, false_and]
      split
      · exact ⟨_, rfl⟩
      · exact ih _ (by omega) (by omega)

theorem range_total (pat : Bytes) (p : Nat) (x : UInt8) (h : p < pat.length) :
    ∃ r, range pat p x = some r := by
  unfold range
  obtain ⟨c, hc⟩ := ch_some (s := pat) (i := p + 1) (by omega)
  simp only [hc, Option.bind_eq_bind, Option.bind_some]
  by_cases hb : c = BANG
  · have hp1 : p + 1 < pat.length := ch_lt hc (by rw [hb]; decide)
    obtain ⟨d, hd⟩ := ch_some (s := pat) (i := p + 2) (by omega)
    simp only [hb, beq_self_eq_true, if_true, hd, Option.bind_some]
    split
    · exact ⟨_, rfl⟩
    · exact rangeLoop_total _ _ _ _ _ (by omega) (by omega)
  · have : (c == BANG) = false := by simpa using hb
    simp only [this, Bool.false_eq_true, if_false, hc, Option.bind_some]
    split
    · exact ⟨_, rfl⟩
    · exact rangeLoop_total _ _ _ _ _ (by omega) (by omega)

theorem strncmpEq_total (pat addr : Bytes) (h0 : (0 : UInt8) ∉ pat) :
    ∀ n i j, i + n ≤ pat.length → j ≤ addr.length →
      ∃ r, strncmpEq pat addr i j n = some r ∧ (r = true → j + n ≤ addr.length) := by
  intro n
  induction n with
  | zero => intro i j h1 h2; exact ⟨true, rfl, fun _ => h2⟩
  | succ n ih =>
    intro i j h1 h2
    obtain ⟨c, hc⟩ := ch_some (s := pat) (i := i) (by omega)
    obtain ⟨d, hd⟩ := ch_some h2
    have hc0 : c ≠ 0 := ch_ne_zero h0 (by omega) hc
    simp only [strncmpEq, hc, hd, Option.bind_eq_bind, Option.bind_some, hc0, if_false]
    split
    · rename_i hcd
      have hj : j < addr.length := ch_lt hd (hcd ▸ hc0)
      obtain ⟨r, hr, hr'⟩ := ih (i + 1) (j + 1) (by omega) (by omega)
      exact ⟨r, hr, fun h => by have := hr' h; omega⟩
    · exact ⟨false, rfl, by simp⟩

theorem altPushes_total (pat addr : Bytes) (aa rest : Nat) (h0 : (0 : UInt8) ∉ pat) (haa : aa ≤ addr.length) :
    ∀ n p1 p2, p1 ≤ p2 → p2 ≤ pat.length → pat.length + 1 ≤ n + p2 →
      ∃ l, altPushes pat addr aa rest n p1 p2 = some l ∧ l.length + p2 ≤ pat.length ∧
        ∀ e ∈ l, e.1 = rest ∧ aa ≤ e.2 ∧ e.2 ≤ addr.length := by
  intro n
  induction n with
  | zero => intro p1 p2 h1 h2 h3; omega
  | succ n ih =>
    intro p1 p2 h1 h2 h3
    obtain ⟨c, hc⟩ := ch_some h2
    simp only [altPushes, hc, Option.bind_eq_bind, Option.bind_some]
    split
    · exact ⟨[], rfl, by simpa using h2, by simp⟩
    rename_i hne
    have hlt : p2 < pat.length := ch_lt hc (fun h => hne (Or.inr h))
    split
    · obtain ⟨r, hr, hr'⟩ := strncmpEq_total pat addr h0 (p2 - p1) p1 aa (by omega) haa
      simp only [hr, Option.bind_some]
      split
      · refine ⟨_, rfl, ?_, ?_⟩
        · split <;> simp <;> omega
        · intro e he
          split at he
          · rename_i hrt
            have := hr' hrt
            simp at he; subst he; simp; omega
          · simp at he
      · obtain ⟨l, hl, hl1, hl2⟩ := ih (p2 + 1) (p2 + 1) (by omega) (by omega) (by omega)
        simp only [hl, Option.bind_some]
        refine ⟨_, rfl, ?_, ?_⟩
        · simp only [List.length_append]; split <;> simp <;> omega
        · intro e he
          simp only [List.mem_append] at he
          rcases he with he | he
          · split at he
            · rename_i hrt
              have := hr' hrt
              simp at he; subst he; simp; omega
            · simp at he
          · exact hl2 e he
    · obtain ⟨l, hl, hl1, hl2⟩ := ih p1 (p2 + 1) (by omega) (by omega) (by omega)
      exact ⟨l, hl, by omega, hl2⟩

/-- Stack invariant: states lie inside the strings. -/
def Inv (pat addr : Bytes) (st : List (Nat × Nat)) : Prop :=
  ∀ e ∈ st, e.1 ≤ pat.length ∧ e.2 ≤ addr.length

def wt (pat addr : Bytes) (e : Nat × Nat) : Nat :=
  (addr.length - e.2 + 1) * (pat.length + addr.length + 2) ^ (pat.length - e.1)

def W (pat addr : Bytes) (st : List (Nat × Nat)) : Nat := (st.map (wt pat addr)).sum

theorem wt_pos (pat addr : Bytes) (e : Nat × Nat) : 0 < wt pat addr e := by
  unfold wt; exact Nat.mul_pos (by omega) (Nat.pow_pos (by omega))

theorem W_cons (pat addr : Bytes) (e st) : W pat addr (e :: st) = wt pat addr e + W pat addr st := by
  simp [W]

theorem W_append (pat addr : Bytes) (s t) : W pat addr (s ++ t) = W pat addr s + W pat addr t := by
  simp [W]

theorem W_reverse (pat addr : Bytes) (s) : W pat addr s.reverse = W pat addr s := by
  simp [W, List.sum_reverse]

/-- Moving forward in the pattern (and not backward in the address) decreases the weight, even when the state is
replaced by up to `pat.length + addr.length + 1` states. -/
theorem W_branch (pat addr : Bytes) (p a : Nat) (l : List (Nat × Nat)) (hp : p < pat.length)
    (hl : ∀ e ∈ l, p < e.1 ∧ a ≤ e.2) (hlen : l.length ≤ pat.length + addr.length + 1) :
    W pat addr l < wt pat addr (p, a) := by
  generalize hB : pat.length + addr.length + 2 = B at *
  have hone : ∀ e ∈ l, wt pat addr e ≤ (addr.length - a + 1) * B ^ (pat.length - p - 1) := by
    intro e he
    have := hl e he
    unfold wt
    rw [hB]
    exact Nat.mul_le_mul (by omega) (Nat.pow_le_pow_right (by omega) (by omega))
  have hsum : W pat addr l ≤ l.length * ((addr.length - a + 1) * B ^ (pat.length - p - 1)) := by
    clear hlen hl
    induction l with
    | nil => simp [W]
    | cons e l ih =>
      have h1 := hone e (by simp)
      have h2 := ih (fun e he => hone e (by simp [he]))
      rw [W_cons, List.length_cons, Nat.succ_mul]
      omega
  have hw : wt pat addr (p, a) = B * ((addr.length - a + 1) * B ^ (pat.length - p - 1)) := by
    unfold wt
    rw [hB]
    have : pat.length - p = (pat.length - p - 1) + 1 := by omega
    simp only
    rw [this, Nat.pow_succ]
    simp [Nat.mul_comm, Nat.mul_left_comm]
  rw [hw]
  have hpos : 0 < (addr.length - a + 1) * B ^ (pat.length - p - 1) :=
    Nat.mul_pos (by omega) (Nat.pow_pos (by omega))
  exact Nat.lt_of_le_of_lt hsum (Nat.mul_lt_mul_of_pos_right (by omega) hpos)

theorem wt_p_lt (pat addr : Bytes) {p a p' a' : Nat} (hp : p < pat.length) (h1 : p < p') (h2 : a ≤ a') :
    wt pat addr (p', a') < wt pat addr (p, a) := by
  have := W_branch pat addr p a [(p', a')] hp (by simp [h1, h2]) (by simp)
  simpa [W] using this

theorem wt_a_lt (pat addr : Bytes) {p a p' a' : Nat} (ha : a < addr.length) (h1 : p ≤ p') (h2 : a < a') :
    wt pat addr (p', a') < wt pat addr (p, a) := by
  unfold wt
  simp only
  calc (addr.length - a' + 1) * (pat.length + addr.length + 2) ^ (pat.length - p')
      ≤ (addr.length - a' + 1) * (pat.length + addr.length + 2) ^ (pat.length - p) :=
        Nat.mul_le_mul_left _ (Nat.pow_le_pow_right (by omega) (by omega))
    _ < (addr.length - a + 1) * (pat.length + addr.length + 2) ^ (pat.length - p) :=
        Nat.mul_lt_mul_of_pos_right (by omega) (Nat.pow_pos (by omega))

/-- What one round guarantees. -/
def Good (pat addr : Bytes) (w : Nat) : Option Step → Prop
  | none => False
  | some (.ret r) => r.po ≤ pat.length ∧ r.ao ≤ addr.length
  | some (.cont st) => Inv pat addr st ∧ W pat addr st < w

theorem Good.mono {pat addr : Bytes} {w w' : Nat} {s} (h : Good pat addr w s) (hw : w ≤ w') :
    Good pat addr w' s := by
  rcases s with _ | s
  · exact h
  · cases s with
    | ret r => exact h
    | cont st => exact ⟨h.1, by have := h.2; omega⟩

theorem inv_cons {pat addr : Bytes} {e st} (h1 : e.1 ≤ pat.length) (h2 : e.2 ≤ addr.length)
    (h : Inv pat addr st) : Inv pat addr (e :: st) := by
  intro x hx
  rcases List.mem_cons.mp hx with rfl | hx
  · exact ⟨h1, h2⟩
  · exact h x hx

theorem good_cont_cons {pat addr : Bytes} {p a p' a' : Nat} {rest} (hinv : Inv pat addr rest)
    (hp : p' ≤ pat.length) (ha : a' ≤ addr.length) (hlt : wt pat addr (p', a') < wt pat addr (p, a)) :
    Good pat addr (W pat addr ((p, a) :: rest)) (some (.cont ((p', a') :: rest))) := by
  refine ⟨inv_cons hp ha hinv, ?_⟩
  rw [W_cons, W_cons]; omega

theorem good_pop {pat addr : Bytes} {e rest} (hinv : Inv pat addr rest) :
    Good pat addr (W pat addr (e :: rest)) (some (.cont rest)) := by
  refine ⟨hinv, ?_⟩
  have := wt_pos pat addr e
  rw [W_cons]; omega

theorem good_pushAll {pat addr : Bytes} {p a : Nat} {rest l} (hinv : Inv pat addr rest)
    (hp : p < pat.length) (ha : a ≤ addr.length)
    (hl : ∀ e ∈ l, p < e.1 ∧ e.1 ≤ pat.length ∧ a ≤ e.2 ∧ e.2 ≤ addr.length)
    (hlen : l.length ≤ pat.length + addr.length + 1) :
    Good pat addr (W pat addr ((p, a) :: rest)) (some (pushAll l rest p a)) := by
  unfold pushAll
  split
  · exact ⟨by simp; omega, ha⟩
  · refine ⟨?_, ?_⟩
    · intro e he
      simp only [List.mem_append, List.mem_reverse] at he
      rcases he with he | he
      · exact ⟨(hl e he).2.1, (hl e he).2.2.2⟩
      · exact hinv e he
    · rw [W_append, W_reverse, W_cons]
      have := W_branch pat addr p a l hp (fun e he => ⟨(hl e he).1, (hl e he).2.2.1⟩) hlen
      omega

theorem step_good (pat addr : Bytes) (hp0 : (0 : UInt8) ∉ pat) (st) (h : Inv pat addr st) :
    Good pat addr (W pat addr st) (step pat addr st) := by
  cases st with
  | nil => exact ⟨Nat.zero_le _, Nat.zero_le _⟩
  | cons e rest =>
    obtain ⟨p, a⟩ := e
    have he := h (p, a) (by simp)
    have hr : Inv pat addr rest := fun x hx => h x (by simp [hx])
    simp only at he
    obtain ⟨hp, ha⟩ := he
    obtain ⟨pc, hpc⟩ := ch_some hp
    obtain ⟨ac, hac⟩ := ch_some ha
    simp only [step, hpc, hac, Option.bind_eq_bind, Option.bind_some]
    split
    · -- end of address
      obtain ⟨q, hq, hq1, hq2⟩ := scan_spec isStar hp
      obtain ⟨c, hc⟩ := ch_some hq2
      simp only [stepEnd, hq, hc, Option.bind_eq_bind, Option.bind_some]
      split
      · exact ⟨hq2, ha⟩
      split
      · exact ⟨hq2, ha⟩
      · exact good_pop hr
    rename_i hac0
    have hal : a < addr.length := ch_lt hac hac0
    split
    · -- address at a slash
      unfold stepSlash
      split
      · rename_i _ hpcs
        have hpl : p < pat.length := ch_lt hpc (by rw [hpcs]; decide)
        refine ⟨inv_cons (by simp; omega) (by simp; omega) (by intro x hx; simp at hx), ?_⟩
        have := wt_p_lt pat addr (a := a) (a' := a + 1) hpl (Nat.lt_succ_self p) (by omega)
        rw [W_cons, W_cons]; simp [W] at *; omega
      split
      · exact ⟨hp, ha⟩
      split
      · rename_i _ _ _ hstar
        have hpl : p < pat.length := ch_lt hpc (by rw [hstar]; decide)
        obtain ⟨q, hq, hq1, hq2⟩ := scan_spec isStar hp
        have hadv := scan_advance isStar hpl hpc (by rw [hstar]; decide) hq
        simp only [hq, Option.bind_eq_bind, Option.bind_some]
        exact good_cont_cons hr hq2 ha (wt_p_lt pat addr hpl hadv (Nat.le_refl _))
      · exact good_pop hr
    rename_i hacs
    -- ordinary character in the address
    have hls : ∃ b, loneStar addr a ac = some b := by
      unfold loneStar
      split
      · obtain ⟨c1, h1⟩ := ch_some (s := addr) (i := a - 1) (by omega)
        obtain ⟨c2, h2⟩ := ch_some (s := addr) (i := a + 1) (by omega)
        simp [h1, h2]
      · exact ⟨_, rfl⟩
    obtain ⟨ls, hls⟩ := hls
    simp only [hls, Option.bind_some]
    split
    · obtain ⟨a', ha', h1, h2⟩ := scan_spec inComp ha
      obtain ⟨p', hp', h3, h4⟩ := scan_spec inComp hp
      have hadv := scan_advance inComp hal hac (by simp [inComp, hacs, hac0]) ha'
      simp only [ha', hp', Option.bind_some]
      exact good_cont_cons hr h4 h2 (wt_a_lt pat addr hal h3 hadv)
    unfold stepChar
    split
    · exact good_pop hr
    split
    · exact good_pop hr
    rename_i hpc0
    have hpl : p < pat.length := ch_lt hpc hpc0
    have hnext : Good pat addr (W pat addr ((p, a) :: rest)) (some (.cont ((p + 1, a + 1) :: rest))) :=
      good_cont_cons hr (by omega) (by omega) (wt_p_lt pat addr hpl (by omega) (by omega))
    split
    · exact hnext
    split
    · -- '['
      unfold stepRange
      obtain ⟨r, hr'⟩ := range_total pat p ac hpl
      simp only [hr', Option.bind_eq_bind, Option.bind_some]
      split
      · exact good_pop hr
      split
      · obtain ⟨c1, hc1⟩ := ch_some (s := pat) (i := p + 1) (by omega)
        simp only [hc1, Option.bind_some]
        have hstart : ∃ q0, (if c1 = RBRACK then p + 2 else p) = q0 ∧ p ≤ q0 ∧ q0 ≤ pat.length := by
          split
          · rename_i h1
            have : p + 1 < pat.length := ch_lt hc1 (by rw [h1]; decide)
            exact ⟨_, rfl, by omega, by omega⟩
          · exact ⟨_, rfl, by omega, by omega⟩
        obtain ⟨q0, hq0, hq01, hq02⟩ := hstart
        rw [hq0]
        obtain ⟨q, hq, hq1, hq2⟩ := scan_spec inBrack hq02
        obtain ⟨c, hc⟩ := ch_some hq2
        simp only [hq, hc, Option.bind_some]
        split
        · rename_i hcr
          have : q < pat.length := ch_lt hc (by rw [hcr]; decide)
          exact good_cont_cons hr (by omega) (by omega) (wt_p_lt pat addr hpl (by omega) (by omega))
        · exact ⟨Nat.zero_le _, Nat.zero_le _⟩
      · exact ⟨Nat.zero_le _, Nat.zero_le _⟩
    split
    · -- '{'
      unfold stepBrace
      obtain ⟨q, hq, hq1, hq2⟩ := scan_spec inBrace hp
      obtain ⟨c, hc⟩ := ch_some hq2
      simp only [hq, hc, Option.bind_eq_bind, Option.bind_some]
      split
      · rename_i hcr
        have hql : q < pat.length := ch_lt hc (by rw [hcr]; decide)
        obtain ⟨l, hl, hl1, hl2⟩ := altPushes_total pat addr a (q + 1) hp0 ha (pat.length + 1) (p + 1) (p + 1)
          (by omega) (by omega) (by omega)
        simp only [hl, Option.bind_some]
        refine good_pushAll hr hpl ha ?_ (by omega)
        intro e he
        have := hl2 e he
        omega
      · exact ⟨Nat.zero_le _, Nat.zero_le _⟩
    split
    · exact ⟨Nat.zero_le _, Nat.zero_le _⟩
    split
    · exact ⟨Nat.zero_le _, Nat.zero_le _⟩
    split
    · -- '*'
      unfold stepStar
      obtain ⟨q, hq, hq1, hq2⟩ := scan_spec (s := pat) (i := p + 1) isStar (by omega)
      obtain ⟨c, hc⟩ := ch_some hq2
      obtain ⟨e, he, he1, he2⟩ := scan_spec inComp ha
      simp only [hq, hc, he, Option.bind_eq_bind, Option.bind_some]
      split
      · exact good_cont_cons hr hq2 he2 (wt_p_lt pat addr hpl (by omega) he1)
      · refine good_pushAll hr hpl ha ?_ (by simp; omega)
        intro x hx
        simp only [List.mem_reverse, List.mem_map, List.mem_range] at hx
        obtain ⟨i, hi, rfl⟩ := hx
        simp; omega
    split
    · exact hnext
    · exact good_pop hr

theorem run_total (pat addr : Bytes) (hp0 : (0 : UInt8) ∉ pat) :
    ∀ n st, Inv pat addr st → W pat addr st < n →
      ∃ r, run pat addr n st = some r ∧ r.po ≤ pat.length ∧ r.ao ≤ addr.length := by
  intro n
  induction n with
  | zero => intro st _ h; omega
  | succ n ih =>
    intro st hinv hw
    have hg := step_good pat addr hp0 st hinv
    unfold run
    generalize hs : step pat addr st = s at hg
    rcases s with _ | s
    · exact hg.elim
    · cases s with
      | ret r => exact ⟨r, rfl, hg⟩
      | cont st' =>
        exact ih st' hg.1 (by have := hg.2; omega)

end Libo.Match
