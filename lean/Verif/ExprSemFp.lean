import Verif.ExprSemLemmas
import Verif.Props.ExprFloat
import Verif.Props.TimeSeconds
/-!
# Lemmas: the numbers of the specification and those of the properties

`Sem.asFp` and `Sem.dbl` compute what `IsDouble` and `IsNum` say.
-/

namespace Libo.Fp
open Libo

/-- The bits of a number that is not NaN are the only ones. -/
theorem toBits_ofBits (F : Fmt) (b : Nat) (hb : b < 2 ^ (F.mb + F.eb + 1)) (hn : ofBits F b ≠ .nan) : toBits F (ofBits F b) = b := by
  have hM := Nat.two_pow_pos F.mb
  have e1 := Nat.div_add_mod b (2 ^ F.mb)
  have e2 := Nat.div_add_mod (b / 2 ^ F.mb) (2 ^ F.eb)
  have hs : b / 2 ^ (F.mb + F.eb) < 2 := by
    rw [Nat.div_lt_iff_lt_mul (Nat.two_pow_pos _), Nat.mul_comm, ← Nat.pow_succ]; exact hb
  have e3 : b / 2 ^ F.mb / 2 ^ F.eb = b / 2 ^ (F.mb + F.eb) := by rw [Nat.div_div_eq_div_mul, ← Nat.pow_add]
  have hsb : signBit F (b / 2 ^ (F.mb + F.eb) % 2 == 1) = 2 ^ (F.mb + F.eb) * (b / 2 ^ (F.mb + F.eb)) := by
    rcases (show ∀ q : Nat, q < 2 → q = 0 ∨ q = 1 by omega) _ hs with h | h <;> rw [h] <;> simp [signBit]
  have hb' : b = 2 ^ (F.mb + F.eb) * (b / 2 ^ (F.mb + F.eb)) + b / 2 ^ F.mb % 2 ^ F.eb * 2 ^ F.mb + b % 2 ^ F.mb := by
    rw [e3] at e2
    conv => lhs; rw [← e1, ← e2]
    rw [Nat.mul_add, ← Nat.mul_assoc, ← Nat.pow_add, Nat.mul_comm (2 ^ F.mb) (_ % _)]
  have hml := Nat.mod_lt b hM
  simp only [ofBits] at hn ⊢
  generalize b / 2 ^ F.mb % 2 ^ F.eb = ex at *
  generalize b % 2 ^ F.mb = man at *
  split
  · rename_i h1
    rw [if_pos h1] at hn
    split
    · rename_i h2
      simp only [toBits, hsb]
      rw [← h1]; omega
    · rename_i h2
      rw [if_neg h2] at hn
      exact absurd rfl hn
  · split
    · rename_i h2
      have hl : Nat.log2 man - F.mb = 0 := by
        by_cases h0 : man = 0
        · subst h0; simp
        · have := (Nat.log2_lt h0).mpr hml
          omega
      simp only [toBits, hsb, hl, Nat.pow_zero, Nat.div_one, Nat.zero_mul]
      rw [h2] at hb'
      omega
    · rename_i h2
      have hp1 : 2 ^ (F.mb + 1) = 2 * 2 ^ F.mb := Nat.pow_succ'
      have h0 : (man + 2 ^ F.mb) * 2 ^ (ex - 1) ≠ 0 := Nat.mul_ne_zero (by omega) (Nat.ne_of_gt (Nat.two_pow_pos _))
      have hl : Nat.log2 ((man + 2 ^ F.mb) * 2 ^ (ex - 1)) = F.mb + (ex - 1) := by
        refine (Nat.log2_eq_iff h0).mpr ⟨?_, ?_⟩
        · rw [Nat.pow_add]; exact Nat.mul_le_mul_right _ (by omega)
        · rw [show F.mb + (ex - 1) + 1 = (F.mb + 1) + (ex - 1) by omega, Nat.pow_add]
          exact Nat.mul_lt_mul_of_pos_right (by omega) (Nat.two_pow_pos _)
      simp only [toBits, hsb, hl]
      rw [show F.mb + (ex - 1) - F.mb = ex - 1 by omega, Nat.mul_div_cancel _ (Nat.two_pow_pos _), Nat.sub_mul, Nat.one_mul]
      have : 1 * 2 ^ F.mb ≤ ex * 2 ^ F.mb := Nat.mul_le_mul_right _ (by omega)
      omega

end Libo.Fp

namespace Libo.Sem
open Libo Libo.Expr Libo.Props Libo.Ieee

theorem asFp_isDouble {v : Val} {x : Fp} (h : asFp v = some x) : IsDouble v x := by
  cases v with
  | num tag b =>
    simp only [asFp] at h
    split at h
    · rename_i ht; subst ht
      simp only [Option.some.injEq] at h
      subst h
      exact .double b
    · split at h
      · rename_i ht; subst ht
        simp only [Option.some.injEq] at h
        subst h
        exact .float b
      · simp only [Option.map_eq_some_iff] at h
        obtain ⟨⟨t, n⟩, h1, rfl⟩ := h
        obtain ⟨g1, g2⟩ := asInt_spec h1
        rw [g2]
        exact .int t n _ g1 (ofInt_intDouble n)
  | bare t =>
    simp only [asFp] at h
    split at h
    · rename_i ht; subst ht
      simp only [Option.some.injEq] at h
      subst h
      exact .bool true _ (ofInt_intDouble 1)
    · split at h
      · rename_i ht; subst ht
        simp only [Option.some.injEq] at h
        subst h
        exact .bool false _ (ofInt_intDouble 0)
      · cases h
  | _ => simp [asFp] at h

theorem floating_iff (v : Val) : floating v = true ↔ Floating v := by
  cases v <;> simp [floating, Floating]

theorem not_floating {v : Val} : floating v = false ↔ ¬ Floating v := by
  rw [← floating_iff]; simp

theorem dbl_some {x : Fp} {w : Val} (h : dbl x = some w) : x ≠ .nan ∧ w = .num 100 (Fp.toBits f64 x) := by
  simp only [dbl] at h
  split at h
  · cases h
  · rename_i hn
    simp only [Option.some.injEq] at h
    exact ⟨hn, h.symm⟩

theorem flt_some {x : Fp} {w : Val} (h : flt x = some w) : x ≠ .nan ∧ w = .num 102 (Fp.toBits f32 x) := by
  simp only [flt] at h
  split at h
  · cases h
  · rename_i hn
    simp only [Option.some.injEq] at h
    exact ⟨hn, h.symm⟩

/-- A `double` with the number of a value has the value. -/
theorem dbl_val {u : UAtom} {x : Fp} {w : Val} (hu : IsNum u x) (h : dbl x = some w) : u.val = some w := by
  obtain ⟨hn, rfl⟩ := dbl_some h
  obtain ⟨b, h1, h2, rfl⟩ := hu
  rw [h2, Fp.toBits_ofBits f64 b h1 hn]

theorem time_bounds {a : UAtom} {s f : Nat} (h : a.val = some (.time s f)) : s < 2 ^ 32 ∧ f < 2 ^ 32 := by
  obtain ⟨-, rfl, rfl⟩ := time_of_val h
  exact ⟨UInt32.toNat_lt _, UInt32.toNat_lt _⟩

theorem givesTime_ok {r : Option (Int × UAtom)} {s f : Nat} (h : GivesTime r (s * 2 ^ 32 + f)) (hf : f < 2 ^ 32) :
    ∃ u', r = some (0, u') ∧ u'.val = some (.time s f) := by
  obtain ⟨u, s', f', h1, h2, h3⟩ := h
  obtain ⟨-, hf'⟩ := time_bounds h2
  refine ⟨u, h1, ?_⟩
  rw [h2, show s' = s by omega, show f' = f by omega]

theorem asSeconds_some {v : Val} {n : Nat} (h : asSeconds v = some n) : n < 2 ^ 32 ∧ IsDouble v (.fin false (n * 2 ^ 1074)) := by
  simp only [asSeconds] at h
  split at h
  · rename_i m hm
    split at h
    · rename_i hc
      simp only [Option.some.injEq] at h
      subst h
      refine ⟨hc.2, ?_⟩
      rw [Nat.div_mul_cancel (Nat.dvd_of_mod_eq_zero hc.1)]
      exact asFp_isDouble hm
    · cases h
  · cases h

/-- The order of two numbers. -/
def orderOf (x y : Fp) : Option Ordering :=
  match place x, place y with
  | some p, some q => some (compare p q)
  | _, _ => none

end Libo.Sem
