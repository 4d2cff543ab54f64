import Verif.ExprSemMore
/-!
# The function table has the functions of the semantics

Under their names and with their numbers of arguments.
-/

namespace Libo.Sem
open Libo Libo.Expr Libo.Props Libo.Ieee

/-! ### The function table -/

/-- The table has the function, under its name and with its numbers of arguments. -/
def Covered (P : Text.Printf) (F : Fun) : Prop :=
  ∃ e f, lookup F.name = some e ∧ e.fn P = .prim f ∧ FnOk f F.sem ∧
    ∀ n, F.least ≤ n → (match F.most with | some m => n ≤ m | none => True) → e.arityOk n = true

theorem covered_op {P : Text.Printf} {name : Bytes} {F : Val → Val → Option R1} {f : Expr.Op} (h : OpOk f F) (e : Entry)
    (h1 : lookup name = some e) (h2 : e.fn P = .prim (arg2 f)) (h3 : e.required = 2) : Covered P (opFun name F) :=
  ⟨e, _, h1, h2, fnOk_op h, fun n h4 h5 => by
    have h4 : 2 ≤ n := h4
    have h5 : n ≤ 2 := h5
    simp [Entry.arityOk, show n = e.required by omega]⟩

theorem covered_exact {P : Text.Printf} {name : Bytes} {k : Nat} {sem : List (List Val) → Option R} {f : List Ar → Res} (h : FnOk f sem) (e : Entry)
    (h1 : lookup name = some e) (h2 : e.fn P = .prim f) (h3 : e.required = k) : Covered P ⟨name, k, some k, sem⟩ :=
  ⟨e, _, h1, h2, h, fun n h4 h5 => by
    have h4 : k ≤ n := h4
    have h5 : n ≤ k := h5
    simp [Entry.arityOk, show n = e.required by omega]⟩

theorem covered_least {P : Text.Printf} {name : Bytes} {k : Nat} {sem : List (List Val) → Option R} {f : List Ar → Res} (h : FnOk f sem) (e : Entry)
    (h1 : lookup name = some e) (h2 : e.fn P = .prim f) (h3 : e.required ≤ k) (h6 : e.optional < 0) : Covered P ⟨name, k, none, sem⟩ :=
  ⟨e, _, h1, h2, h, fun n h4 h5 => by
    have h4 : k ≤ n := h4
    simp [Entry.arityOk, show ¬ n < e.required by omega, h6]⟩

set_option maxRecDepth 8000 in
theorem list_funs_ok (P : Text.Printf) : ∀ F ∈ listFuns, Covered P F := by
  intro F hF
  simp only [listFuns, List.mem_cons, List.not_mem_nil, or_false] at hF
  rcases hF with rfl | rfl | rfl | rfl | rfl | rfl | rfl | rfl | rfl | rfl | rfl | rfl | rfl | rfl | rfl | rfl | rfl | rfl | rfl | rfl |
    rfl | rfl | rfl | rfl | rfl | rfl | rfl | rfl | rfl | rfl | rfl | rfl | rfl | rfl | rfl | rfl | rfl | rfl | rfl | rfl | rfl | rfl |
    rfl | rfl | rfl | rfl
  · exact covered_op opOk_add _ rfl rfl rfl
  · exact covered_op opOk_sub _ rfl rfl rfl
  · exact covered_op opOk_mul _ rfl rfl rfl
  · exact covered_op opOk_div _ rfl rfl rfl
  · exact covered_op opOk_add _ rfl rfl rfl
  · exact covered_op opOk_sub _ rfl rfl rfl
  · exact covered_op opOk_mul _ rfl rfl rfl
  · exact covered_op opOk_div _ rfl rfl rfl
  · exact covered_op opOk_lt _ rfl rfl rfl
  · exact covered_op opOk_le _ rfl rfl rfl
  · exact covered_op opOk_gt _ rfl rfl rfl
  · exact covered_op opOk_gte _ rfl rfl rfl
  · exact covered_op opOk_lt _ rfl rfl rfl
  · exact covered_op opOk_le _ rfl rfl rfl
  · exact covered_op opOk_gt _ rfl rfl rfl
  · exact covered_op opOk_gte _ rfl rfl rfl
  · exact covered_op opOk_eq _ rfl rfl rfl
  · exact covered_op opOk_neq _ rfl rfl rfl
  · exact covered_op opOk_eq _ rfl rfl rfl
  · exact covered_op opOk_neq _ rfl rfl rfl
  · exact covered_op opOk_and _ rfl rfl rfl
  · exact covered_op opOk_or _ rfl rfl rfl
  · exact covered_op opOk_and _ rfl rfl rfl
  · exact covered_op opOk_or _ rfl rfl rfl
  · exact covered_exact fnOk_not _ rfl rfl rfl
  · exact covered_exact fnOk_not _ rfl rfl rfl
  · exact covered_exact (fnOk_step 1) _ rfl rfl rfl
  · exact covered_exact (fnOk_step 1) _ rfl rfl rfl
  · exact covered_exact (fnOk_step (-1)) _ rfl rfl rfl
  · exact covered_exact (fnOk_step (-1)) _ rfl rfl rfl
  · exact covered_least fnOk_list _ rfl rfl (by decide) (by decide)
  · exact covered_exact fnOk_length _ rfl rfl rfl
  · exact covered_exact fnOk_reverse _ rfl rfl rfl
  · exact covered_exact fnOk_reverse _ rfl rfl rfl
  · exact covered_exact fnOk_first _ rfl rfl rfl
  · exact covered_exact fnOk_last _ rfl rfl rfl
  · exact covered_exact fnOk_rest _ rfl rfl rfl
  · exact covered_exact fnOk_butlast _ rfl rfl rfl
  · exact covered_exact fnOk_nonzero _ rfl rfl rfl
  · exact covered_exact fnOk_identity _ rfl rfl rfl
  · exact covered_least fnOk_nth _ rfl rfl (by decide) (by decide)
  · refine ⟨_, _, rfl, rfl, fnOk_nfill, fun n h4 h5 => ?_⟩
    have h4 : 2 ≤ n := h4
    have h5 : n ≤ 2 := h5
    obtain rfl : n = 2 := by omega
    rfl
  · exact covered_least fnOk_interleave _ rfl rfl (by decide) (by decide)
  · exact covered_least fnOk_prog1 _ rfl rfl (by decide) (by decide)
  · exact covered_least fnOk_prog2 _ rfl rfl (by decide) (by decide)
  · exact covered_least fnOk_progn _ rfl rfl (by decide) (by decide)

set_option maxRecDepth 8000 in
theorem num_funs_ok (P : Text.Printf) : ∀ F ∈ numFuns, Covered P F := by
  intro F hF
  simp only [numFuns, List.mem_cons, List.not_mem_nil, or_false] at hF
  rcases hF with rfl | rfl | rfl | rfl | rfl | rfl | rfl | rfl | rfl | rfl | rfl | rfl | rfl | rfl | rfl | rfl | rfl | rfl | rfl | rfl | rfl | rfl | rfl | rfl | rfl | rfl | rfl | rfl | rfl | rfl | rfl | rfl | rfl | rfl | rfl | rfl | rfl | rfl | rfl | rfl | rfl
  · exact covered_op opOk_modulo _ rfl rfl rfl
  · exact covered_op opOk_modulo _ rfl rfl rfl
  · exact covered_exact fnOk_fmod _ rfl rfl rfl
  · exact covered_exact fnOk_abs _ rfl rfl rfl
  · exact covered_exact fnOk_ceil _ rfl rfl rfl
  · exact covered_exact fnOk_floor _ rfl rfl rfl
  · exact covered_exact fnOk_round _ rfl rfl rfl
  · exact covered_exact fnOk_sign _ rfl rfl rfl
  · exact covered_exact fnOk_sum _ rfl rfl rfl
  · exact covered_exact fnOk_product _ rfl rfl rfl
  · exact covered_exact fnOk_mean _ rfl rfl rfl
  · exact covered_exact fnOk_mean _ rfl rfl rfl
  · exact covered_exact fnOk_dot _ rfl rfl rfl
  · exact covered_exact fnOk_min _ rfl rfl rfl
  · exact covered_exact fnOk_max _ rfl rfl rfl
  · exact covered_exact fnOk_extrema _ rfl rfl rfl
  · exact covered_exact fnOk_range _ rfl rfl rfl
  · exact covered_exact fnOk_clip _ rfl rfl rfl
  · refine ⟨_, _, rfl, rfl, fnOk_aseq, fun n h4 h5 => ?_⟩
    have h4 : 2 ≤ n := h4
    have h5 : n ≤ 3 := h5
    obtain rfl | rfl : n = 2 ∨ n = 3 := by omega
    · rfl
    · rfl
  · exact covered_exact fnOk_cumsum _ rfl rfl rfl
  · exact covered_exact (fnOk_strlen P) _ rfl rfl rfl
  · exact covered_exact (fnOk_strfind P) _ rfl rfl rfl
  · exact covered_exact (fnOk_split P) _ rfl rfl rfl
  · exact covered_least (fnOk_join P) _ rfl rfl (by decide) (by decide)
  · exact covered_exact (fnOk_strchar P) _ rfl rfl rfl
  · exact covered_exact (fnOk_cast P .i8) _ rfl rfl rfl
  · exact covered_exact (fnOk_cast P .i8) _ rfl rfl rfl
  · exact covered_exact (fnOk_cast P .i16) _ rfl rfl rfl
  · exact covered_exact (fnOk_cast P .i32) _ rfl rfl rfl
  · exact covered_exact (fnOk_cast P .i64) _ rfl rfl rfl
  · exact covered_exact (fnOk_cast P .u8) _ rfl rfl rfl
  · exact covered_exact (fnOk_cast P .u16) _ rfl rfl rfl
  · exact covered_exact (fnOk_cast P .u32) _ rfl rfl rfl
  · exact covered_exact (fnOk_cast P .u64) _ rfl rfl rfl
  · exact covered_exact (fnOk_bool P) _ rfl rfl rfl
  · exact covered_exact fnOk_bitand _ rfl rfl rfl
  · exact covered_exact fnOk_bitor _ rfl rfl rfl
  · exact covered_exact fnOk_hton32 _ rfl rfl rfl
  · exact covered_exact fnOk_ntoh32 _ rfl rfl rfl
  · exact covered_exact fnOk_hton64 _ rfl rfl rfl
  · exact covered_exact fnOk_ntoh64 _ rfl rfl rfl

theorem covered_const {P : Text.Printf} {name : Bytes} {bits : Nat} {c : Fp} (h : Fp.toBits f64 c % 2 ^ 64 = bits) (e : Entry)
    (h1 : lookup name = some e) (h2 : e.fn P = .prim (constant c)) (h3 : e.required = 0) : Covered P (constFun name bits) :=
  ⟨e, _, h1, h2, fnOk_const h name, fun n h4 h5 => by
    have h5 : n ≤ 0 := h5
    simp [Entry.arityOk, show n = e.required by omega]⟩

set_option maxRecDepth 8000 in
theorem const_funs_ok (P : Text.Printf) : ∀ F ∈ constFuns, Covered P F := by
  intro F hF
  simp only [constFuns, List.mem_cons, List.not_mem_nil, or_false] at hF
  rcases hF with rfl | rfl | rfl | rfl | rfl | rfl | rfl | rfl | rfl | rfl | rfl | rfl | rfl | rfl | rfl | rfl | rfl | rfl
  · exact covered_const (c := cPi) (by decide +kernel) _ rfl rfl rfl
  · exact covered_const (c := cTwoPi) (by decide +kernel) _ rfl rfl rfl
  · exact covered_const (c := cHalfPi) (by decide +kernel) _ rfl rfl rfl
  · exact covered_const (c := cQuarterPi) (by decide +kernel) _ rfl rfl rfl
  · exact covered_const (c := cOneOverPi) (by decide +kernel) _ rfl rfl rfl
  · exact covered_const (c := cTwoOverPi) (by decide +kernel) _ rfl rfl rfl
  · exact covered_const (c := cDegToRad) (by decide +kernel) _ rfl rfl rfl
  · exact covered_const (c := cRadToDeg) (by decide +kernel) _ rfl rfl rfl
  · exact covered_const (c := cE) (by decide +kernel) _ rfl rfl rfl
  · exact covered_const (c := cLn2) (by decide +kernel) _ rfl rfl rfl
  · exact covered_const (c := cLn10) (by decide +kernel) _ rfl rfl rfl
  · exact covered_const (c := cLog2E) (by decide +kernel) _ rfl rfl rfl
  · exact covered_const (c := cLog10E) (by decide +kernel) _ rfl rfl rfl
  · exact covered_const (c := cSqrt2) (by decide +kernel) _ rfl rfl rfl
  · exact covered_const (c := cSqrtHalf) (by decide +kernel) _ rfl rfl rfl
  · exact covered_const (c := cPhi) (by decide +kernel) _ rfl rfl rfl
  · exact covered_const (c := cRoot12) (by decide +kernel) _ rfl rfl rfl
  · exact covered_const (c := cRoot13) (by decide +kernel) _ rfl rfl rfl

set_option maxRecDepth 8000 in
theorem root_funs_ok (P : Text.Printf) : ∀ F ∈ rootFuns, Covered P F := by
  intro F hF
  simp only [rootFuns, List.mem_cons, List.not_mem_nil, or_false] at hF
  rcases hF with rfl | rfl | rfl | rfl | rfl | rfl
  · exact covered_exact fnOk_sqrt _ rfl rfl rfl
  · exact covered_exact fnOk_logb _ rfl rfl rfl
  · exact covered_exact fnOk_ilogb _ rfl rfl rfl
  · exact covered_exact fnOk_remainder _ rfl rfl rfl
  · exact covered_exact (fnOk_float64 P) _ rfl rfl rfl
  · exact covered_exact fnOk_typetags _ rfl rfl rfl

set_option maxRecDepth 8000 in
theorem more_funs_ok (P : Text.Printf) : ∀ F ∈ moreFuns, Covered P F := by
  intro F hF
  simp only [moreFuns, List.mem_cons, List.not_mem_nil, or_false] at hF
  rcases hF with rfl | rfl | rfl | rfl | rfl | rfl | rfl
  · exact covered_exact fnOk_scale _ rfl rfl rfl
  · exact covered_exact fnOk_cross _ rfl rfl rfl
  · exact covered_exact (fnOk_string P) _ rfl rfl rfl
  · exact covered_exact fnOk_readstring _ rfl rfl rfl
  · exact covered_exact (fnOk_dynamic P) _ rfl rfl rfl
  · exact covered_least fnOk_det _ rfl rfl (by decide) (by decide)
  · exact covered_exact (fnOk_float32 P) _ rfl rfl rfl

theorem funs_ok (P : Text.Printf) : ∀ F ∈ funs, Covered P F := fun F hF => by
  simp only [funs, List.mem_append] at hF
  rcases hF with (((hF | hF) | hF) | hF) | hF
  · exact list_funs_ok P F hF
  · exact num_funs_ok P F hF
  · exact const_funs_ok P F hF
  · exact root_funs_ok P F hF
  · exact more_funs_ok P F hF

end Libo.Sem
