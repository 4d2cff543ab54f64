import Verif.Props.ExprScan
/-!
# C81: `eval`
-/

namespace Libo.Props
open Libo Libo.Expr Libo.Sem Libo.Syn

variable {T : Tab} {env : Option Nat} {st st1 : St} {f : Nat}

/-- The loop of `eval` goes through the expressions as the evaluation of a text does, without the value of the last one. -/
theorem evalEach_list (n : Nat) : ∀ (is : List Nat) (st st' : St) (code : Int) (v : Ar), evalList T n is st = some (st', code, v) →
    evalEach (run T n) is st = some (st', code)
  | [], st, st', code, v, h => by
    simp only [evalList, Option.some.injEq, Prod.mk.injEq] at h
    obtain ⟨rfl, rfl, rfl⟩ := h
    rfl
  | [i], st, st', code, v, h => by
    have h : run T n none st i = some (st', code, v) := h
    simp only [evalEach, h, Option.bind_some]
    split
    · rfl
    · rename_i hc
      rw [Classical.not_not.mp hc]
  | i :: j :: js, st, st', code, v, h => by
    have h : (run T n none st i).bind (fun r => if r.2.1 ≠ 0 then some (r.1, r.2.1, none) else evalList T n (j :: js) r.1) = some (st', code, v) := h
    rw [evalEach]
    cases hr : run T n none st i with
    | none => rw [hr] at h; cases h
    | some r =>
      rw [hr, Option.bind_some] at h
      rw [Option.bind_some]
      split at h
      · rename_i hc
        rw [if_pos hc]
        simp only [Option.some.injEq, Prod.mk.injEq] at h
        rw [h.1, h.2.1]
      · rename_i hc
        rw [if_neg hc]
        exact evalEach_list n (j :: js) _ _ _ _ h

/-- What `eval` tells about a result: 0, or the code of the error. -/
def codeOf : R → Int
  | .ok _ => 0
  | .error c => c

/-- **C81 (partial).**  `eval(x)`, where the value of `x` is one string, and this string is a text of the part of the language that C61 covers: the
bundle is changed as this text says (`Sem.program`), and the result is one 32 bit integer, 0 or the code of the error the text ends with; the
evaluation of `eval` itself never has an error.

Missing: texts outside this part, texts with a syntax error, and values other than one string. -/
theorem C81_eval_partial (E : Text.Env) (P : Text.Printf) {a0 : Arg} {rest : List Arg} {l : Ar} {s : Bytes}
    (hf : st.exprs[f]? = some ⟨.eval, a0 :: rest⟩) (hx : ArgEvals (lookups E P) env st a0 (st1, 0, l)) (hl : Holds l [.str s])
    (p : Prog) (hs : Written E p.toks s) (hp : p.ok) (hw : wfs p.items = true) (hdr : Bytes) (B B' : Sem.Binds) (hb : Rep hdr B st1.bndl) (r : R)
    (h : program p.items B = some (B', r)) :
    ∃ st2 out, Evals (lookups E P) env st f (st2, 0, out) ∧ Rep hdr B' st2.bndl ∧ Holds out [ITy.i32.val (codeOf r)] := by
  obtain ⟨ts, h1, h2, h3, h4⟩ := items_good E P p.items [] hw hp.2.2
  obtain ⟨k1, -, k3⟩ := loadAll_loaded ts st1 h2 h3
  obtain ⟨st2, code, out, n0, g1, g2, g3⟩ := eval_program E P p.items ts _ (loadAll ts st1).1 B B' r hdr h4 k1 (envRep_none _) (by rw [k3]; exact hb) h
  have hparse : (lookups E P).parse s = some ts := by
    have : parseExpr P p.toks = .ok ts := by
      simp only [parseExpr, (C59_parse_iff p.toks p).mpr ⟨rfl, hp⟩]
      simpa using h1
    simp only [lookups, C62_scan E hs, Option.bind_some, this]
  have hcode : code = codeOf r := by
    cases r with
    | ok vs => exact g3.1
    | error c => exact g3.2
  obtain ⟨n, hn⟩ := hx
  have r1 := evalArg_mono (le_max_run n n0) _ _ _ _ hn
  have r2 := evalEach_list _ _ _ _ _ _ (g1 (max n n0) (Nat.le_max_right n n0))
  cases l with
  | none => cases hl
  | some l =>
    obtain ⟨a, rfl, ha⟩ := holds_single hl
    have hstr : strOf (some a) = some s := by
      obtain ⟨tag, al, w⟩ := a
      rcases val_eq tag al w _ ha with ⟨-, h2⟩ | ⟨-, h2⟩ | ⟨-, h2⟩ | ⟨-, h2⟩ | ⟨-, h2⟩ | ⟨rfl, p, s', rfl, h2⟩ |
        ⟨-, p, blk, l, c, -, -, -, h2⟩ | ⟨-, p, ms, vs, -, -, h2⟩ | ⟨h2, -⟩ <;> simp at h2
      subst h2
      rfl
    refine ⟨st2, some [.mk 105 false (.bits (code % M32).toNat)], evals_node.mpr ⟨max n n0, ?_⟩, g2, ?_⟩
    · simp only [evalNode, hf, evalTextNode, List.getElem?_cons_zero, r1, Option.bind_some]
      rw [if_neg (by decide)]
      simp only [hstr, hparse, Option.bind_some, r2]
      have : setTo (mk 1) 0 (fun x => x.setInt32 code) = some [.mk 105 false (.bits (code % M32).toNat)] := by
        have e : setTo (mk 1) 0 (fun x => x.setInt32 code) = (UAtom.fresh.setInt32 code).map fun a' => [a'] := rfl
        rw [e, Text.setInt32_fresh, Option.map_some]
      simp only [this, Option.map_some]
    · rw [← hcode]
      have e : (code % (M32 : Nat)).toNat % M32 = (code % (2 ^ 32 : Nat)).toNat := by
        have : (code % (M32 : Nat)).toNat < M32 := by simp only [M32]; omega
        rw [Nat.mod_eq_of_lt this]
      show argsVal [UAtom.mk 105 false (.bits (code % (M32 : Nat)).toNat)] = some [.num 105 (code % (2 ^ 32 : Nat)).toNat]
      have key : ∀ x, argsVal [UAtom.mk 105 false (.bits x)] = some [.num 105 (x % M32)] := fun _ => rfl
      rw [key, e]

/-- **C81.**  An unbound address is an error, and nothing is evaluated. -/
theorem C81_unbound {a0 : Arg} {rest : List Arg} {l : Ar} (hf : st.exprs[f]? = some ⟨.eval, a0 :: rest⟩)
    (hx : ArgEvals T env st a0 (st1, UNBOUND, l)) : Evals T env st f (st1, UNBOUND, none) := by
  obtain ⟨n, hn⟩ := hx
  refine evals_node.mpr ⟨n, ?_⟩
  simp only [evalNode, hf, evalTextNode, List.getElem?_cons_zero, hn, Option.bind_some]
  rw [if_pos trivial]

/-! ### Example -/

/-- `/x=12` -/
def setText : Prog := ⟨false, [.assign (n! "/x") (.num (lit 12))]⟩

def evalSt : St := { exprs := [⟨.eval, [.atom (some (.mk 115 false (.str 1 (n! "/x=12"))))]⟩], recs := [], envs := [], bndl := some (0, none) }

-- `eval("/x=12")` with an empty bundle
example (E : Text.Env) (P : Text.Printf) : ∃ st2 out, Evals (lookups E P) none evalSt 0 (st2, 0, out) ∧
    Rep plainHeader [(n! "/x", [ITy.i32.val 12])] st2.bndl ∧ Holds out [ITy.i32.val 0] := by
  refine C81_eval_partial E P (st1 := evalSt) (l := some [.mk 115 false (.str 1 (n! "/x=12"))]) rfl ⟨0, rfl⟩ rfl setText ?_
    ((C59_parse_iff setText.toks _).mp rfl).2 rfl plainHeader [] _ ⟨rfl, .inr ⟨rfl, rfl, rfl⟩⟩ (.ok [ITy.i32.val 12]) rfl
  exact .tok (y := n! "/x") (.addr (by decide) (by decide)) (by decide) (.tok (y := n! "=") (.symbol (by simp [symbols]))
    (by decide) (.tok (y := n! "12") (.int (by decide) (by decide) (by decide) (by decide) rfl) (by decide) .nil))

end Libo.Props
