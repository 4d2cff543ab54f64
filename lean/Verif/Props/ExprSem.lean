import Verif.ExprSemTable
import Verif.ExprSemForms
import Verif.Props.ExprParse
import Verif.Props.ExprBuild
/-!
# C61: a text of the expression language computes what the specification says

`Sem.den` (`ExprSem.lean`) says what an expression does to a bundle and which values it has, without parser, function table and
evaluator.  The theorem here is that parsing a text, building its expressions and evaluating them with a bundle does that.
-/

namespace Libo.Sem
open Libo Libo.Expr Libo.Props Libo.Syn

theorem andThen_assoc {α β γ : Type} (d : D α) (f : Binds → α → D β) (g : Binds → β → D γ) :
    andThen (andThen d f) g = andThen d fun B a => andThen (f B a) g := by
  rcases d with _ | ⟨B, c | a⟩ <;> rfl

theorem andThen_ok {α β : Type} (B : Binds) (a : α) (f : Binds → α → D β) : andThen (some (B, .ok a)) f = f B a := rfl

theorem prim_of (P : Text.Printf) {name : Bytes} {F : Fun} (h : funOf name = some F) :
    ∃ e f, lookup name = some e ∧ e.fn P = .prim f ∧ (∀ n, accepts name n = true → e.arityOk n = true) ∧
      ∀ T ρ B ts d, Sounds T ρ B ts d → Sound T ρ B (.app (.prim f) ts) (andThen d (callD name)) := by
  have hm : F ∈ funs := List.mem_of_find?_eq_some h
  have hn : F.name = name := by simpa using List.find?_some h
  obtain ⟨e, f, h1, h2, h3, h4⟩ := funs_ok P F hm
  rw [hn] at h1
  refine ⟨e, f, h1, h2, fun n ha => ?_, fun T ρ B ts d hs => ?_⟩
  · simp only [accepts, h, Bool.and_eq_true, decide_eq_true_eq] at ha
    refine h4 n ha.1 ?_
    cases hmost : F.most with
    | none => trivial
    | some m => simpa [hmost] using ha.2
  · have : (callD name) = fun B vss => (checked (F.sem vss)).map fun r => (B, r) := by
      funext B vss
      simp only [callD, call, h]
    rw [this]
    exact sound_prim h3 hs

/-- What is to be shown about an expression. -/
def Good (E : Text.Env) (P : Text.Printf) (c : Cst) : Prop :=
  ∃ t, build P c = .ok t ∧ Fine t ∧ (c.isExpr = true → ∃ f as, t = .app f as) ∧ ∀ ρ B, Sound (lookups E P) ρ B t (den c ρ B)

/-- What is to be shown about what is applied. -/
def GoodFn (E : Text.Env) (P : Text.Printf) (c : Cst) : Prop :=
  ∃ t, build P c = .ok t ∧ Fine t ∧ (∀ ρ, AppSound (lookups E P) ρ t (denFn c ρ)) ∧
    ∀ cs ts ρ B, SoundL (lookups E P) cs ts → Sound (lookups E P) ρ B (.app .apply (t :: ts)) (den (.call (n! "apply") (c :: cs)) ρ B)

def Goods (E : Text.Env) (P : Text.Printf) (cs : List Cst) : Prop :=
  ∃ ts, builds P cs = .ok ts ∧ Fines ts ∧ SoundL (lookups E P) cs ts ∧ (cs.all Cst.isExpr = true → Bodies ts)

theorem strAtom_val (s : Bytes) : (strAtom s).val = some (.str s) := rfl

theorem nameOk_target {a : Bytes} (h : nameOk a = true) : isTarget a = true := by
  simp only [nameOk, Bool.and_eq_true] at h
  exact h.1.1

theorem sounds_one {T : Tab} {ρ : Vars} {B : Binds} {t : Tm} {d : D (List Val)} (h : Sound T ρ B t d) :
    Sounds T ρ B [t] (andThen d fun B vs => some (B, .ok [vs])) := sounds_cons h fun _ => sounds_nil

theorem sounds_two {T : Tab} {ρ : Vars} {B : Binds} {t u : Tm} {d : D (List Val)} {d' : Binds → D (List Val)} (h : Sound T ρ B t d)
    (h' : ∀ B, Sound T ρ B u (d' B)) :
    Sounds T ρ B [t, u] (andThen d fun B vs => andThen (d' B) fun B ws => some (B, .ok [vs, ws])) := by
  have := sounds_cons h fun B => sounds_one (h' B)
  simpa only [andThen_assoc, andThen_ok] using this

/-- A call with one or two arguments. -/
theorem sound_call1 (E : Text.Env) (P : Text.Printf) {name : Bytes} {F : Fun} (hF : funOf name = some F) (ha : accepts name 1 = true) {t : Tm} (ht : Fine t) :
    ∃ f, prefixFn P name [t] = .app f [t] ∧ (∃ e, lookup name = some e ∧ e.fn P = f) ∧ Fine (.app f [t]) ∧ ∀ ρ B d, Sound (lookups E P) ρ B t d →
      Sound (lookups E P) ρ B (.app f [t]) (andThen d fun B xs => callD name B [xs]) := by
  obtain ⟨e, f, h1, h2, h3, h4⟩ := prim_of P hF
  refine ⟨.prim f, by simp only [prefixFn, h1]; rw [if_pos (h3 [t].length ha), h2], ⟨e, h1, h2⟩, by simp only [Fine, Fines]; exact ⟨ht, trivial⟩, fun ρ B d hd => ?_⟩
  have := h4 _ _ _ _ _ (sounds_one hd)
  simpa only [andThen_assoc, andThen_ok] using this

theorem sound_call2 (E : Text.Env) (P : Text.Printf) {name : Bytes} {F : Fun} (hF : funOf name = some F) (ha : accepts name 2 = true) {t u : Tm} (ht : Fine t)
    (hu : Fine u) :
    ∃ f, prefixFn P name [t, u] = .app f [t, u] ∧ (∃ e, lookup name = some e ∧ e.fn P = f) ∧ Fine (.app f [t, u]) ∧
      ∀ (ρ : Vars) (B : Binds) (d : D (List Val)) (d' : Binds → D (List Val)), Sound (lookups E P) ρ B t d → (∀ B, Sound (lookups E P) ρ B u (d' B)) →
      Sound (lookups E P) ρ B (.app f [t, u]) (andThen d fun B xs => andThen (d' B) fun B ys => callD name B [xs, ys]) := by
  obtain ⟨e, f, h1, h2, h3, h4⟩ := prim_of P hF
  refine ⟨.prim f, by simp only [prefixFn, h1]; rw [if_pos (h3 [t, u].length ha), h2], ⟨e, h1, h2⟩, by simp only [Fine, Fines]; exact ⟨ht, hu, trivial⟩, fun ρ B d d' hd hd' => ?_⟩
  have := h4 _ _ _ _ _ (sounds_two hd hd')
  simpa only [andThen_assoc, andThen_ok] using this

theorem infixFn_eq (P : Text.Printf) {name : Bytes} {e : Entry} {f : Fn} (h : lookup name = some e) (hf : e.fn P = f) (l r : Tm) :
    infixFn P name l r = .app f [l, r] := by simp only [infixFn, h, hf]

set_option maxRecDepth 4000 in
theorem assign_eq (P : Text.Printf) (l r : Tm) : prefixFn P [97, 115, 115, 105, 103, 110] [l, r] = .app .assign [l, r] ∧
    infixFn P [97, 115, 115, 105, 103, 110] l r = .app .assign [l, r] ∧ infixFn P [61] l r = .app .assign [l, r] := ⟨rfl, rfl, rfl⟩

set_option maxRecDepth 4000 in
theorem coalesce_eq (P : Text.Printf) {a : Bytes} (h : isTarget a = true) (t : Tm) :
    coalesceFn P a t = .app .cond [.app .bound [.addr a], .addr a, t] := by
  simp only [coalesceFn]
  rw [if_pos h]
  rfl

theorem sound_coalesce {E : Text.Env} {P : Text.Printf} {ρ : Vars} {a : Bytes} (h : nameOk a = true) {t : Tm} {d : Binds → D (List Val)}
    (ht : ∀ B, Sound (lookups E P) ρ B t (d B)) (B : Binds) :
    Sound (lookups E P) ρ B (.app .cond [.app .bound [.addr a], .addr a, t]) (if bound B a then read B a else d B) := by
  have := sound_cond (sound_bound (T := lookups E P) (B := B) h) (fun B => sound_addr (B := B) h) ht
  rw [andThen_ok] at this
  cases hb : bound B a <;> simp only [hb] at this ⊢ <;> exact this

theorem sound_stepAddr {E : Text.Env} {P : Text.Printf} {a : Bytes} (h : nameOk a = true) (up : Bool) :
    ∃ t, prefixStep P up a = .ok t ∧ Fine t ∧ (∃ f as, t = .app f as) ∧ ∀ ρ B, Sound (lookups E P) ρ B t (stepAddr up a B) := by
  have hu : ∃ F, funOf (if up then n! "plus1" else n! "minus1") = some F := by
    cases up
    · exact ⟨_, rfl⟩
    · exact ⟨_, rfl⟩
  obtain ⟨F, hF⟩ := hu
  have ha : accepts (if up then n! "plus1" else n! "minus1") 1 = true := by cases up <;> rfl
  obtain ⟨f, h1, -, h3, h4⟩ := sound_call1 E P hF ha (t := .addr a) (by simp only [Fine])
  refine ⟨.app .assign [.addr a, .app f [.addr a]], ?_, ?_, ⟨_, _, rfl⟩, fun ρ B => ?_⟩
  · simp only [prefixStep]
    rw [if_pos (nameOk_target h)]
    have e : (if up then ([112, 108, 117, 115, 49] : Bytes) else [109, 105, 110, 117, 115, 49]) = if up then n! "plus1" else n! "minus1" := rfl
    rw [e, h1, (assign_eq P _ _).1]
  · simp only [Fine, Fines] at h3 ⊢
    exact ⟨trivial, h3, trivial⟩
  · have := sound_assign h (h4 ρ B _ (sound_addr h))
    simpa only [andThen_assoc, stepAddr] using this

theorem zeroAtom_val : ∃ z, zeroAtom = some z ∧ z.val = some (ITy.i32.val 0) := setU_fresh .i32 0

theorem opName_eq : ∀ (o : Syn.Op) (name : Bytes), Sem.opName o = some name →
    Expr.opName o = name ∧ assigning o = false ∧ assignName o = none ∧ (∃ F, funOf name = some F) ∧ accepts name 2 = true := by
  intro o name h
  cases o <;> simp only [Sem.opName, Option.some.injEq, reduceCtorEq] at h <;> subst h <;> exact ⟨rfl, rfl, rfl, ⟨_, rfl⟩, rfl⟩

theorem assignName_eq : ∀ (o : Syn.Op) (name : Bytes), assignName o = some name →
    Expr.opName o = name ∧ assigning o = true ∧ (∃ F, funOf name = some F) ∧ accepts name 2 = true := by
  intro o name h
  cases o <;> simp only [assignName, Option.some.injEq, reduceCtorEq] at h <;> subst h <;> exact ⟨rfl, rfl, ⟨_, rfl⟩, rfl⟩

def formName : Form → Bytes
  | .apply => n! "apply" | .map => n! "map" | .reduce true => n! "lreduce" | .reduce false => n! "rreduce" | .cond => n! "if"
  | .short true => n! "andalso" | .short false => n! "orelse" | .assign => n! "assign" | .bound => n! "bound"
  | .elems => n! "assign_to_index" | .exist => n! "exists" | .delete => n! "delete" | .count => n! "getmsgcount" | .addresses => n! "getaddresses"
  | .value => n! "value" | .quote => n! "quote"

theorem formOf_name {f : Bytes} {F : Form} (h : formOf f = some F) : f = formName F := by
  simp only [formOf, Option.map_eq_some_iff] at h
  obtain ⟨⟨n, F'⟩, h1, rfl⟩ := h
  have hn : n = f := by simpa using List.find?_some h1
  subst hn
  have hm := List.mem_of_find?_eq_some h1
  simp only [forms, List.mem_cons, List.not_mem_nil, or_false, Prod.mk.injEq] at hm
  rcases hm with ⟨rfl, rfl⟩ | ⟨rfl, rfl⟩ | ⟨rfl, rfl⟩ | ⟨rfl, rfl⟩ | ⟨rfl, rfl⟩ | ⟨rfl, rfl⟩ | ⟨rfl, rfl⟩ | ⟨rfl, rfl⟩ | ⟨rfl, rfl⟩ | ⟨rfl, rfl⟩ | ⟨rfl, rfl⟩ | ⟨rfl, rfl⟩ | ⟨rfl, rfl⟩ | ⟨rfl, rfl⟩ | ⟨rfl, rfl⟩ | ⟨rfl, rfl⟩ <;> rfl

theorem arity_least {e : Entry} {n : Nat} (h1 : e.required = 2) (h2 : e.optional = -1) (hn : 2 ≤ n) : e.arityOk n = true := by
  simp only [Entry.arityOk, h1, h2]
  split
  · rfl
  · rw [if_neg (by omega), if_pos (by omega)]

set_option maxRecDepth 4000 in
theorem apply_eq (P : Text.Printf) (t : Tm) (ts : List Tm) (h : ts ≠ []) : prefixFn P (n! "apply") (t :: ts) = .app .apply (t :: ts) := by
  have h1 : ∃ e, lookup (n! "apply") = some e ∧ e.fn P = .apply ∧ e.required = 2 ∧ e.optional = -1 := ⟨_, rfl, rfl, rfl, rfl⟩
  obtain ⟨e, h1, h2, h3, h4⟩ := h1
  simp only [prefixFn, h1]
  rw [if_pos (arity_least h3 h4 (by cases ts with | nil => exact absurd rfl h | cons _ _ => simp)), h2]

set_option maxRecDepth 4000 in
theorem map_eq (P : Text.Printf) (t : Tm) (ts : List Tm) (h : ts ≠ []) : prefixFn P (n! "map") (t :: ts) = .app .map (t :: ts) := by
  have h1 : ∃ e, lookup (n! "map") = some e ∧ e.fn P = .map ∧ e.required = 2 ∧ e.optional = -1 := ⟨_, rfl, rfl, rfl, rfl⟩
  obtain ⟨e, h1, h2, h3, h4⟩ := h1
  simp only [prefixFn, h1]
  rw [if_pos (arity_least h3 h4 (by cases ts with | nil => exact absurd rfl h | cons _ _ => simp)), h2]

theorem pure1_of {f : Bytes} (h : ∀ B xs, callD f B [xs] = (checked (some (.ok xs))).map fun r => (B, r)) (B : Binds) (xs : List Val) :
    callD f B [xs] = pure1 B xs := by
  rw [h]
  simp only [checked, pure1]
  split <;> rfl

/-- The values of an evaluation are simple, so a function that gives them back changes nothing. -/
theorem sound_same {T : Tab} {ρ : Vars} {B : Binds} {t : Tm} {f : Fn} {name : Bytes} {d : D (List Val)}
    (hn : ∀ B xs, callD name B [xs] = (checked (some (.ok xs))).map fun r => (B, r)) (h : Sound T ρ B t d)
    (h' : Sound T ρ B (.app f [t]) (andThen d fun B xs => callD name B [xs])) : Sound T ρ B (.app f [t]) d := by
  intro B' r hd st env a hdr he hl hr
  have hs : ∃ a', Loaded st t a' := by
    simp only [Loaded, LoadedAll] at hl
    obtain ⟨e, _, rfl, he, a0, _, rfl, hl, rfl⟩ := hl
    exact ⟨a0, hl⟩
  obtain ⟨a', hl'⟩ := hs
  obtain ⟨b, code, v, -, -, -, ho⟩ := h B' r hd st env a' hdr he hl' hr
  refine h' B' r ?_ st env a hdr he hl hr
  subst hd
  cases r with
  | error c => rfl
  | ok vs =>
    simp only [andThen, pure1_of hn, pure1]
    rw [if_pos ho.2.2]

theorem lam_eq (P : Text.Printf) (p : Params) {ts body : List Tm} (h : ∀ brk, bodyOf P brk ts = .ok body) : lamFn P p ts = .ok (.fn p.names body) := by
  cases p with
  | one x => simp only [lamFn, h, Out.bind, Params.names]
  | many ps => cases ps <;> simp only [lamFn, h, Out.bind, Params.names]

theorem bodyRest_apps (P : Text.Printf) (brk : Bool) : ∀ (ts acc : List Tm), acc ≠ [] → Bodies ts → bodyRest P brk acc ts = .ok (acc ++ ts)
  | [], acc, _, _ => by simp [bodyRest]
  | t :: ts, acc, ha, h => by
    obtain ⟨⟨f, as, rfl⟩, h⟩ := h
    cases acc with
    | nil => exact absurd rfl ha
    | cons a acc =>
      have := bodyRest_apps P brk ts (a :: acc ++ [.app f as]) (by simp) h
      simp only [bodyRest, Tm.isExpr, if_true, List.append_eq]
      rw [List.append_assoc] at this
      exact this

set_option maxRecDepth 4000 in
/-- The body of a lambda expression: its expressions, or `prog1` of its only argument. -/
theorem body_good (E : Text.Env) (P : Text.Printf) {b : List Cst} {ts : List Tm} (h1 : builds P b = .ok ts) (h2 : Fines ts) (h3 : SoundL (lookups E P) b ts)
    (hb : b.all Cst.isExpr = true → Bodies ts) (hw : wfs b = true) (hne : (!b.isEmpty) = true) (hl : (b.length == 1 || b.all Cst.isExpr) = true) :
    ∃ body, (∀ brk, bodyOf P brk ts = .ok body) ∧ Fines body ∧ Bodies body ∧ SoundL (lookups E P) b body := by
  cases b with
  | nil => simp at hne
  | cons c b =>
    have h3' := h3
    obtain ⟨t, ts', rfl, hs, h3⟩ := h3
    by_cases he : (c :: b).all Cst.isExpr = true
    · have hbd := hb he
      refine ⟨t :: ts', fun brk => ?_, h2, hbd, h3'⟩
      obtain ⟨⟨f, as, rfl⟩, hr⟩ := hbd
      simp only [bodyOf, Tm.isExpr, if_true]
      rw [bodyRest_apps P brk ts' _ (by simp) hr]
      rfl
    · have hl1 : b = [] := by simpa [he] using hl
      subst hl1
      simp only [SoundL] at h3
      subst h3
      have hc : c.isExpr = false := by simpa using he
      simp only [Fines] at h2
      have hbt : build P c = .ok t := by
        simp only [builds] at h1
        cases hbc : build P c with
        | ok t0 => simpa [hbc, Out.bind] using h1
        | _ => simp [hbc, Out.bind] at h1
      have hp1 : accepts (n! "prog1") 1 = true := rfl
      have wrap : ∀ t', t.isExpr = false → t.copy = some t' → Fine t' → (∀ ρ B, Sound (lookups E P) ρ B t' (den c ρ B)) →
          ∃ body, (∀ brk, bodyOf P brk [t] = .ok body) ∧ Fines body ∧ Bodies body ∧ SoundL (lookups E P) [c] body := by
        intro t' w1 w2 w3 w4
        obtain ⟨f, -, ⟨e, k2, k3⟩, k4, k5⟩ := sound_call1 E P (name := n! "prog1") rfl hp1 w3
        refine ⟨[.app f [t']], fun brk => ?_, by simp only [Fines]; exact ⟨k4, trivial⟩, ⟨⟨f, [t'], rfl⟩, trivial⟩,
          ⟨.app f [t'], [], rfl, fun ρ B => sound_same (name := n! "prog1") (fun _ _ => rfl) (w4 ρ B) (k5 ρ B _ (w4 ρ B)), rfl⟩⟩
        have k2 : lookup [112, 114, 111, 103, 49] = some e := k2
        simp only [bodyOf, w1, Bool.false_eq_true, if_false, w2, Out.ofOption, Out.bind, prog1Of, k2, k3, bodyRest]
      simp only [wfs, Bool.and_eq_true] at hw
      cases c with
      | num a =>
        simp only [build, Out.ok.injEq] at hbt
        subst hbt
        have hf := h2.1
        simp only [Fine] at hf
        obtain ⟨v, hv, hcp⟩ := hf
        obtain ⟨a', k1, k2, -⟩ := copyAtom_val a v hv hcp
        refine wrap (.atom a') rfl (by simp only [Tm.copy, k1, Option.map_some]) (by simp only [Fine]; exact ⟨v, k2, hcp⟩) fun ρ B => ?_
        simp only [den, hv]
        exact sound_atom k2
      | str s =>
        simp only [build, Out.ok.injEq] at hbt
        subst hbt
        have hf := h2.1
        simp only [Fine] at hf
        obtain ⟨v, hv, hcp⟩ := hf
        obtain ⟨a', k1, k2, -⟩ := copyAtom_val (strAtom s) v hv hcp
        rw [strAtom_val] at hv
        injection hv with hv
        subst hv
        refine wrap (.atom a') rfl (by simp only [Tm.copy, k1, Option.map_some]) (by simp only [Fine]; exact ⟨_, k2, hcp⟩) fun ρ B => ?_
        simp only [den]
        exact sound_atom k2
      | addr s =>
        simp only [build, Out.ok.injEq] at hbt
        subst hbt
        exact wrap (.addr s) rfl (by simp only [Tm.copy]) h2.1 hs
      | lam p b0 => simp [wf] at hw
      | _ => cases hc

theorem sound_weaken {T : Tab} {ρ : Vars} {B : Binds} {t : Tm} {d d' : D (List Val)} (hd : ∀ B' r, d' = some (B', r) → d = some (B', r))
    (h : Sound T ρ B t d) : Sound T ρ B t d' := fun B' r e => h B' r (hd B' r e)

theorem bind_ok {α β : Type} {o : Out α} {f : α → Out β} {b : β} (h : o.bind f = .ok b) : ∃ a, o = .ok a ∧ f a = .ok b := by
  cases o with
  | ok a => exact ⟨a, rfl, h⟩
  | _ => cases h

theorem prefix_quiet (P : Text.Printf) {name : Bytes} {ts : List Tm} {e : Entry} (hl : lookup name = some e) (hq : quietFn (e.fn P) = true)
    (hf : Fine (prefixFn P name ts)) (hts : Fines ts → Quiets ts) : Quiet (prefixFn P name ts) := by
  simp only [prefixFn, hl] at hf ⊢
  split at hf
  · rename_i ha
    rw [if_pos ha]
    simp only [Fine] at hf
    simp only [Quiet]
    exact ⟨hq, hts hf⟩
  · simp only [Fine] at hf

theorem stop_ok {t u : Tm} (h : orStop t = .ok u) : t = u := by
  cases t <;> simp only [orStop, Out.ok.injEq, reduceCtorEq] at h <;> exact h

set_option maxRecDepth 4000 in
mutual
/-- What is built from an expression that does not change the bundle does not change the memory. -/
theorem quiet_build (P : Text.Printf) : ∀ c t, quiet c = true → wf c = true → build P c = .ok t → Fine t → Quiet t
  | .num a, t, _, _, hb, _ => by
    simp only [build, Out.ok.injEq] at hb
    subst hb
    simp only [Quiet]
  | .str a, t, _, _, hb, _ => by
    simp only [build, Out.ok.injEq] at hb
    subst hb
    simp only [Quiet]
  | .addr a, t, _, _, hb, _ => by
    simp only [build, Out.ok.injEq] at hb
    subst hb
    simp only [Quiet]
  | .paren e, t, hq, hw, hb, hf => by
    simp only [quiet] at hq
    simp only [wf, Bool.and_eq_true] at hw
    simp only [build] at hb
    exact quiet_build P e t hq hw.2 hb hf
  | .call f as, t, hq, hw, hb, hf => by
    simp only [build] at hb
    obtain ⟨ts, h1, h2⟩ := bind_ok hb
    obtain rfl := stop_ok h2
    rw [quiet.eq_def] at hq
    rw [wf.eq_def] at hw
    cases hform : formOf f with
    | none =>
      simp only [hform] at hq
      simp only [hform, Bool.and_eq_true] at hw
      have hF : ∃ F, funOf f = some F := by
        cases hF : funOf f with
        | none => simp [accepts, hF] at hw
        | some F => exact ⟨F, rfl⟩
      obtain ⟨F, hF⟩ := hF
      obtain ⟨e, g, k1, k2, -⟩ := prim_of P hF
      exact prefix_quiet P k1 (by rw [k2]; rfl) hf (quiet_builds P as ts hq hw.2 h1)
    | some F =>
      obtain rfl := formOf_name hform
      cases F with
      | cond =>
        match as, h1, hq, hw with
        | [c, u, v], h1, hq, hw =>
          simp only [hform] at hq
          simp only [hform, Bool.and_eq_true] at hw
          exact prefix_quiet P (name := n! "if") rfl rfl hf (quiet_builds P [c, u, v] ts hq (by simp only [wfs, hw, Bool.and_self]) h1)
        | [], _, _, hw => simp [hform] at hw
        | [_], _, _, hw => simp [hform] at hw
        | [_, _], _, _, hw => simp [hform] at hw
        | _ :: _ :: _ :: _ :: _, _, _, hw => simp [hform] at hw
      | short and =>
        match as, h1, hq, hw with
        | [c, u], h1, hq, hw =>
          simp only [hform] at hq
          simp only [hform, Bool.and_eq_true] at hw
          have := quiet_builds P [c, u] ts hq (by simp only [wfs, hw, Bool.and_self]) h1
          cases and
          · exact prefix_quiet P (name := n! "orelse") rfl rfl hf this
          · exact prefix_quiet P (name := n! "andalso") rfl rfl hf this
        | [], _, _, hw => simp [hform] at hw
        | [_], _, _, hw => simp [hform] at hw
        | _ :: _ :: _ :: _, _, _, hw => simp [hform] at hw
      | value =>
        match as, h1, hq, hw with
        | [c], h1, hq, hw =>
          simp only [hform] at hq
          simp only [hform] at hw
          exact prefix_quiet P (name := n! "value") rfl rfl hf (quiet_builds P [c] ts hq (by simp only [wfs, hw, Bool.and_self]) h1)
        | [], _, _, hw => simp [hform] at hw
        | _ :: _ :: _, _, _, hw => simp [hform] at hw
      | bound =>
        have : ∃ a, as = [.addr a] ∧ nameOk a = true := by
          simp only [hform] at hw
          split at hw
          · exact ⟨_, rfl, hw⟩
          · cases hw
        obtain ⟨a, rfl, -⟩ := this
        simp only [builds, build, Out.bind, Out.ok.injEq] at h1
        subst h1
        exact prefix_quiet P (name := n! "bound") rfl rfl hf fun _ => by simp only [Quiets, Quiet, and_self]
      | exist =>
        have : ∃ a, as = [.addr a] ∧ nameOk a = true := by
          simp only [hform] at hw
          split at hw
          · exact ⟨_, rfl, hw⟩
          · cases hw
        obtain ⟨a, rfl, -⟩ := this
        simp only [builds, build, Out.bind, Out.ok.injEq] at h1
        subst h1
        exact prefix_quiet P (name := n! "exists") rfl rfl hf fun _ => by simp only [Quiets, Quiet, and_self]
      | count =>
        simp only [hform, List.isEmpty_iff] at hw
        subst hw
        simp only [builds, Out.ok.injEq] at h1
        subst h1
        exact prefix_quiet P (name := n! "getmsgcount") rfl rfl hf fun _ => by simp only [Quiets]
      | addresses =>
        simp only [hform, List.isEmpty_iff] at hw
        subst hw
        simp only [builds, Out.ok.injEq] at h1
        subst h1
        exact prefix_quiet P (name := n! "getaddresses") rfl rfl hf fun _ => by simp only [Quiets]
      | quote =>
        have : ∃ x, ts = [.atom x] := by
          simp only [hform] at hw
          split at hw
          · simp only [builds, build, Out.bind, Out.ok.injEq] at h1
            exact ⟨_, h1.symm⟩
          · simp only [builds, build, Out.bind, Out.ok.injEq] at h1
            exact ⟨_, h1.symm⟩
          · cases hw
        obtain ⟨x, rfl⟩ := this
        exact prefix_quiet P (name := n! "quote") rfl rfl hf fun _ => by simp only [Quiets, Quiet, and_self]
      | _ => simp [hform] at hq
  | .quoted s, t, _, _, hb, hf => by
    simp only [build, Out.ok.injEq] at hb
    subst hb
    exact prefix_quiet P (name := n! "quote") rfl rfl hf fun _ => by simp only [Quiets, Quiet, and_self]
  | .infix o l r, t, hq, hw, hb, hf => by
    simp only [quiet, Bool.and_eq_true, Option.isNone_iff_eq_none] at hq
    simp only [wf, hq.1.1, Bool.and_eq_true] at hw
    simp only [build] at hb
    obtain ⟨tl, h1, hb⟩ := bind_ok hb
    obtain ⟨tr, h2, hb⟩ := bind_ok hb
    have key : ∀ {e : Entry}, lookup (Expr.opName o) = some e → quietFn (e.fn P) = true → assigning o = false → Quiet t := by
      intro e k1 k2 k3
      simp only [k3, Bool.false_eq_true, if_false, infixFn, k1, Out.ok.injEq] at hb
      subst hb
      simp only [Fine, Fines] at hf
      simp only [Quiet, Quiets]
      exact ⟨k2, quiet_build P l tl hq.1.2 hw.1.2 h1 hf.1, quiet_build P r tr hq.2 hw.2 h2 hf.2.1, trivial⟩
    cases hn : Sem.opName o with
    | some name =>
      obtain ⟨e1, e2, -, ⟨F, hF⟩, -⟩ := opName_eq o name hn
      obtain ⟨e, g, k1, k2, -⟩ := prim_of P hF
      exact key (by rw [e1]; exact k1) (by rw [k2]; rfl) e2
    | none =>
      have ho' : o = .andand ∨ o = .oror := by simpa [hn] using hw.1.1
      rcases ho' with rfl | rfl
      · exact key (e := _) rfl rfl rfl
      · exact key (e := _) rfl rfl rfl
  | .cond c u v, t, hq, hw, hb, hf => by
    simp only [quiet, Bool.and_eq_true] at hq
    simp only [wf, Bool.and_eq_true] at hw
    simp only [build] at hb
    obtain ⟨t1, h1, hb⟩ := bind_ok hb
    obtain ⟨t2, h2, hb⟩ := bind_ok hb
    obtain ⟨t3, h3, hb⟩ := bind_ok hb
    simp only [Out.ok.injEq] at hb
    subst hb
    refine prefix_quiet P (name := n! "if") rfl rfl hf fun hfs => ?_
    simp only [Fines] at hfs
    simp only [Quiets]
    exact ⟨quiet_build P c t1 hq.1.1 hw.1.1 h1 hfs.1, quiet_build P u t2 hq.1.2 hw.1.2 h2 hfs.2.1, quiet_build P v t3 hq.2 hw.2 h3 hfs.2.2.1, trivial⟩
  | .nth l is, t, hq, hw, hb, hf => by
    simp only [quiet, Bool.and_eq_true] at hq
    simp only [wf, Bool.and_eq_true] at hw
    simp only [build] at hb
    obtain ⟨t1, h1, hb⟩ := bind_ok hb
    obtain ⟨ts, h2, hb⟩ := bind_ok hb
    simp only [Out.ok.injEq] at hb
    subst hb
    obtain ⟨e, g, k1, k2, -⟩ := prim_of P (name := n! "nth") rfl
    refine prefix_quiet P (name := n! "nth") k1 (by rw [k2]; rfl) hf fun hfs => ?_
    simp only [Fines] at hfs
    simp only [Quiets]
    exact ⟨quiet_build P l t1 hq.1 hw.1.1 h1 hfs.1, quiet_builds P is ts hq.2 hw.2 h2 hfs.2⟩
  | .not c, t, hq, hw, hb, hf => by
    simp only [quiet] at hq
    simp only [wf] at hw
    simp only [build] at hb
    obtain ⟨t1, h1, hb⟩ := bind_ok hb
    obtain ⟨e, g, k1, k2, -⟩ := prim_of P (name := n! "!") rfl
    have k1 : lookup [33] = some e := k1
    simp only [k1, Out.ok.injEq] at hb
    subst hb
    simp only [Fine, Fines] at hf
    simp only [Quiet, Quiets]
    exact ⟨by rw [k2]; rfl, quiet_build P c t1 hq hw h1 hf.1, trivial⟩
  | .neg c, t, hq, hw, hb, hf => by
    simp only [quiet] at hq
    simp only [wf] at hw
    simp only [build] at hb
    obtain ⟨t1, h1, hb⟩ := bind_ok hb
    obtain ⟨z, -, hb⟩ := bind_ok hb
    obtain ⟨e, g, k1, k2, -⟩ := prim_of P (name := n! "-") rfl
    have k1 : lookup [45] = some e := k1
    simp only [k1, Out.ok.injEq] at hb
    subst hb
    simp only [Fine, Fines] at hf
    simp only [Quiet, Quiets]
    exact ⟨by rw [k2]; rfl, trivial, quiet_build P c t1 hq hw h1 hf.2.1, trivial⟩
  | .coalesce a c, t, hq, hw, hb, hf => by
    simp only [quiet] at hq
    simp only [wf, Bool.and_eq_true] at hw
    simp only [build] at hb
    obtain ⟨t1, h1, hb⟩ := bind_ok hb
    rw [coalesce_eq P (nameOk_target hw.1), Out.ok.injEq] at hb
    subst hb
    simp only [Fine, Fines] at hf
    simp only [Quiet, Quiets]
    exact ⟨rfl, ⟨rfl, trivial, trivial⟩, trivial, quiet_build P c t1 hq hw.2 h1 hf.2.2.1, trivial⟩
  | .list as, t, hq, hw, hb, hf => by
    simp only [quiet] at hq
    simp only [wf] at hw
    simp only [build] at hb
    obtain ⟨ts, h2, hb⟩ := bind_ok hb
    simp only [Out.ok.injEq] at hb
    subst hb
    obtain ⟨e, g, k1, k2, -⟩ := prim_of P (name := n! "list") rfl
    exact prefix_quiet P (name := n! "list") k1 (by rw [k2]; rfl) hf (quiet_builds P as ts hq hw h2)
  | .value s, t, _, _, hb, hf => by
    simp only [build, Out.ok.injEq] at hb
    subst hb
    exact prefix_quiet P (name := n! "value") rfl rfl hf fun _ => by simp only [Quiets, Quiet, and_self]
  | .valueAddr s, t, _, _, hb, hf => by
    simp only [build, Out.ok.injEq] at hb
    subst hb
    exact prefix_quiet P (name := n! "value") rfl rfl hf fun _ => by simp only [Quiets, Quiet, and_self]
  | .lam .., _, h, _, _, _ | .bundle .., _, h, _, _, _ | .addrCall .., _, h, _, _, _ | .dot .., _, h, _, _, _ | .strDot .., _, h, _, _, _
  | .assignDot .., _, h, _, _, _ | .assignIdx .., _, h, _, _, _ | .assignRange .., _, h, _, _, _ | .assignRange3 .., _, h, _, _, _
  | .applyFn .., _, h, _, _, _ | .step .., _, h, _, _, _ | .assign .., _, h, _, _, _ | .coalesceEq .., _, h, _, _, _ => by simp [quiet] at h
theorem quiet_builds (P : Text.Printf) : ∀ cs ts, quiets cs = true → wfs cs = true → builds P cs = .ok ts → Fines ts → Quiets ts
  | [], ts, _, _, hb, _ => by
    simp only [builds, Out.ok.injEq] at hb
    subst hb
    simp only [Quiets]
  | c :: cs, ts, hq, hw, hb, hf => by
    simp only [quiets, Bool.and_eq_true] at hq
    simp only [wfs, Bool.and_eq_true] at hw
    simp only [builds] at hb
    obtain ⟨t, h1, hb⟩ := bind_ok hb
    obtain ⟨ts', h2, hb⟩ := bind_ok hb
    simp only [Out.ok.injEq] at hb
    subst hb
    simp only [Fines] at hf
    simp only [Quiets]
    exact ⟨quiet_build P c t hq.1 hw.1 h1 hf.1, quiet_builds P cs ts' hq.2 hw.2 h2 hf.2⟩
end

theorem addrs_build (P : Text.Printf) : ∀ {cs : List Cst} {as : List Bytes}, addrsOf cs = some as → builds P cs = .ok (as.map .addr)
  | [], as, h => by
    simp only [addrsOf, Option.some.injEq] at h
    subst h
    simp only [builds, List.map_nil]
  | .addr a :: cs, as, h => by
    simp only [addrsOf, Option.map_eq_some_iff] at h
    obtain ⟨as', h, rfl⟩ := h
    simp only [builds, build, addrs_build P h, Out.bind, List.map_cons]
  | .num .. :: _, _, h | .str .. :: _, _, h | .lam .. :: _, _, h | .paren .. :: _, _, h | .call .. :: _, _, h | .quoted .. :: _, _, h
  | .infix .. :: _, _, h | .cond .. :: _, _, h | .nth .. :: _, _, h | .not .. :: _, _, h | .neg .. :: _, _, h | .step .. :: _, _, h
  | .assign .. :: _, _, h | .coalesce .. :: _, _, h | .coalesceEq .. :: _, _, h | .list .. :: _, _, h | .bundle .. :: _, _, h
  | .addrCall .. :: _, _, h | .dot .. :: _, _, h | .strDot .. :: _, _, h | .assignDot .. :: _, _, h | .assignIdx .. :: _, _, h
  | .assignRange .. :: _, _, h | .assignRange3 .. :: _, _, h | .applyFn .. :: _, _, h | .value .. :: _, _, h | .valueAddr .. :: _, _, h => by
    simp [addrsOf] at h

theorem fines_addrs : ∀ as : List Bytes, Fines (as.map .addr)
  | [] => by simp only [List.map_nil, Fines]
  | a :: as => by simp only [List.map_cons, Fines, Fine]; exact ⟨trivial, fines_addrs as⟩

set_option maxRecDepth 4000 in
theorem delete_eq (P : Text.Printf) (t : Tm) (ts : List Tm) : prefixFn P (n! "delete") (t :: ts) = .app .delete (t :: ts) := by
  have h1 : ∃ e, lookup (n! "delete") = some e ∧ e.fn P = .delete ∧ e.required = 1 ∧ e.optional = -1 := ⟨_, rfl, rfl, rfl, rfl⟩
  obtain ⟨e, h1, h2, h3, h4⟩ := h1
  simp only [prefixFn, h1]
  rw [if_pos ?_, h2]
  simp only [Entry.arityOk, h3, h4]
  split
  · rfl
  · rw [if_neg (by simp), if_pos (by omega)]

set_option maxRecDepth 4000 in
mutual
theorem good (E : Text.Env) (P : Text.Printf) : ∀ c, wf c = true → Good E P c
  | .num a, h => by
    simp only [wf] at h
    cases hv : a.val with
    | none => simp [hv] at h
    | some v =>
      simp only [hv, Option.map_some, Option.getD_some] at h
      refine ⟨.atom a, by simp only [build], by simp only [Fine]; exact ⟨v, hv, simple_copy h⟩, fun h => (by cases h), fun ρ B => ?_⟩
      simp only [den, hv]
      exact sound_atom hv
  | .str s, h => ⟨.atom (strAtom s), by simp only [build], by simp only [Fine]; exact ⟨_, strAtom_val s, simple_copy (by simpa only [wf] using h)⟩, fun h => (by cases h), fun ρ B => by
      simp only [den]
      exact sound_atom (strAtom_val s)⟩
  | .addr a, h => by
    simp only [wf] at h
    exact ⟨.addr a, by simp only [build], by simp only [Fine], fun h => (by cases h), fun ρ B => by simp only [den]; exact sound_addr h⟩
  | .paren e, h => by
    simp only [wf, Bool.and_eq_true] at h
    obtain ⟨t, h1, h2, h3, h4⟩ := good E P e h.2
    exact ⟨t, by simp only [build]; exact h1, h2, fun _ => h3 h.1, fun ρ B => by simp only [den]; exact h4 ρ B⟩
  | .call f as, h => by
    cases hf : formOf f with
    | none =>
      rw [wf.eq_def] at h
      simp only [hf, Bool.and_eq_true] at h
      obtain ⟨ts, h1, h2, h3, -⟩ := goods' E P as h.2
      have hF : ∃ F, funOf f = some F := by
        cases hF : funOf f with
        | none => simp [accepts, hF] at h
        | some F => exact ⟨F, rfl⟩
      obtain ⟨F, hF⟩ := hF
      obtain ⟨e, g, k1, k2, k3, k4⟩ := prim_of P hF
      refine ⟨.app (.prim g) ts, ?_, by simpa only [Fine] using h2, fun _ => ⟨_, _, rfl⟩, fun ρ B => by rw [den.eq_def]; simp only [hf]; exact k4 _ _ _ _ _ (sounds_of h3 ρ B)⟩
      simp only [build, h1, Out.bind, prefixFn, k1]
      rw [if_pos (k3 _ (soundL_length h3 ▸ h.1)), k2]
      rfl
    | some F =>
      obtain rfl := formOf_name hf
      cases F with
      | apply =>
        match as, h with
        | c :: d :: as, h =>
          rw [wf.eq_def] at h; simp only [hf, Bool.and_eq_true] at h
          obtain ⟨t, h1, h2, -, h4⟩ := goodFn E P c h.1.1
          obtain ⟨u, i1, i2, -, i4⟩ := good E P d h.1.2
          obtain ⟨ts, j1, j2, j3, -⟩ := goods' E P as h.2
          refine ⟨.app .apply (t :: u :: ts), ?_, by simp only [Fine, Fines]; exact ⟨h2, i2, j2⟩, fun _ => ⟨_, _, rfl⟩, fun ρ B => h4 _ _ ρ B ⟨u, ts, rfl, i4, j3⟩⟩
          simp only [build, builds, h1, i1, j1, Out.bind]
          exact congrArg orStop (apply_eq P t (u :: ts) (by simp))
        | [], h => rw [wf.eq_def] at h; simp [hf] at h
        | [c], h => rw [wf.eq_def] at h; simp [hf] at h
      | map =>
        match as, h with
        | c :: d :: as, h =>
          rw [wf.eq_def] at h; simp only [hf, Bool.and_eq_true] at h
          obtain ⟨t, h1, h2, h3, -⟩ := goodFn E P c h.1.1
          obtain ⟨u, i1, i2, -, i4⟩ := good E P d h.1.2
          obtain ⟨ts, j1, j2, j3, -⟩ := goods' E P as h.2
          refine ⟨.app .map (t :: u :: ts), ?_, by simp only [Fine, Fines]; exact ⟨h2, i2, j2⟩, fun _ => ⟨_, _, rfl⟩, fun ρ B => ?_⟩
          · simp only [build, builds, h1, i1, j1, Out.bind]
            exact congrArg orStop (map_eq P t (u :: ts) (by simp))
          · rw [den.eq_def]; simp only [hf]
            exact sound_map (h3 ρ) ⟨u, ts, rfl, i4, j3⟩
        | [], h => rw [wf.eq_def] at h; simp [hf] at h
        | [c], h => rw [wf.eq_def] at h; simp [hf] at h
      | reduce left =>
        match as, h with
        | [c, l], h =>
          rw [wf.eq_def] at h; simp only [hf, Bool.and_eq_true] at h
          obtain ⟨t, h1, h2, h3, -⟩ := goodFn E P c h.1
          obtain ⟨u, i1, i2, -, i4⟩ := good E P l h.2
          refine ⟨.app (reduceFn left) [t, u], ?_, by simp only [Fine, Fines]; exact ⟨h2, i2, trivial⟩, fun _ => ⟨_, _, rfl⟩, fun ρ B => ?_⟩
          · simp only [build, builds, h1, i1, Out.bind]
            cases left <;> rfl
          · rw [den.eq_def]; simp only [hf]
            exact sound_reduce (h3 ρ) (i4 ρ B)
        | [c, l, i], h =>
          rw [wf.eq_def] at h; simp only [hf, Bool.and_eq_true] at h
          obtain ⟨t, h1, h2, h3, -⟩ := goodFn E P c h.1.1
          obtain ⟨u, i1, i2, -, i4⟩ := good E P l h.1.2
          obtain ⟨w, j1, j2, -, j4⟩ := good E P i h.2
          refine ⟨.app (reduceFn left) [t, u, w], ?_, by simp only [Fine, Fines]; exact ⟨h2, i2, j2, trivial⟩, fun _ => ⟨_, _, rfl⟩, fun ρ B => ?_⟩
          · simp only [build, builds, h1, i1, j1, Out.bind]
            cases left <;> rfl
          · rw [den.eq_def]; simp only [hf]
            exact sound_reduceFrom (h3 ρ) (i4 ρ B) (j4 ρ)
        | [], h => rw [wf.eq_def] at h; simp [hf] at h
        | [_], h => rw [wf.eq_def] at h; simp [hf] at h
        | _ :: _ :: _ :: _ :: _, h => rw [wf.eq_def] at h; simp [hf] at h
      | cond =>
        match as, h with
        | [c, t, f], h =>
          rw [wf.eq_def] at h; simp only [hf, Bool.and_eq_true] at h
          obtain ⟨t1, h1, h2, -, h4⟩ := good E P c h.1.1
          obtain ⟨t2, i1, i2, -, i4⟩ := good E P t h.1.2
          obtain ⟨t3, j1, j2, -, j4⟩ := good E P f h.2
          refine ⟨.app .cond [t1, t2, t3], ?_, by simp only [Fine, Fines]; exact ⟨h2, i2, j2, trivial⟩, fun _ => ⟨_, _, rfl⟩, fun ρ B => ?_⟩
          · simp only [build, builds, h1, i1, j1, Out.bind]
            rfl
          · rw [den.eq_def]; simp only [hf]
            exact sound_cond (h4 ρ B) (i4 ρ) (j4 ρ)
        | [], h => rw [wf.eq_def] at h; simp [hf] at h
        | [_], h => rw [wf.eq_def] at h; simp [hf] at h
        | [_, _], h => rw [wf.eq_def] at h; simp [hf] at h
        | _ :: _ :: _ :: _ :: _, h => rw [wf.eq_def] at h; simp [hf] at h
      | short and =>
        match as, h with
        | [l, r], h =>
          rw [wf.eq_def] at h; simp only [hf, Bool.and_eq_true] at h
          obtain ⟨t1, h1, h2, -, h4⟩ := good E P l h.1
          obtain ⟨t2, i1, i2, -, i4⟩ := good E P r h.2
          refine ⟨.app (if and then .andalso else .orelse) [t1, t2], ?_, by simp only [Fine, Fines]; exact ⟨h2, i2, trivial⟩, fun _ => ⟨_, _, rfl⟩, fun ρ B => ?_⟩
          · simp only [build, builds, h1, i1, Out.bind]
            cases and <;> rfl
          · rw [den.eq_def]; simp only [hf]
            exact sound_short (h4 ρ B) (i4 ρ)
        | [], h => rw [wf.eq_def] at h; simp [hf] at h
        | [_], h => rw [wf.eq_def] at h; simp [hf] at h
        | _ :: _ :: _ :: _, h => rw [wf.eq_def] at h; simp [hf] at h
      | assign =>
        match as, h with
        | [l, e], h =>
          cases l with
          | addr a =>
            rw [wf.eq_def] at h; simp only [hf, Bool.and_eq_true] at h
            obtain ⟨t, h1, h2, -, h4⟩ := good E P e h.2
            refine ⟨.app .assign [.addr a, t], ?_, by simp only [Fine, Fines]; exact ⟨trivial, h2, trivial⟩, fun _ => ⟨_, _, rfl⟩, fun ρ B => ?_⟩
            · simp only [build, builds, h1, Out.bind]
              rfl
            · rw [den.eq_def]; simp only [hf]
              exact sound_assign h.1 (h4 ρ B)
          | _ => rw [wf.eq_def] at h; simp [hf] at h
        | [], h => rw [wf.eq_def] at h; simp [hf] at h
        | [_], h => rw [wf.eq_def] at h; simp [hf] at h
        | _ :: _ :: _ :: _, h => rw [wf.eq_def] at h; simp [hf] at h
      | bound =>
        match as, h with
        | [l], h =>
          cases l with
          | addr a =>
            rw [wf.eq_def] at h; simp only [hf] at h
            refine ⟨.app .bound [.addr a], ?_, by simp only [Fine, Fines]; exact ⟨trivial, trivial⟩, fun _ => ⟨_, _, rfl⟩, fun ρ B => ?_⟩
            · simp only [build, builds, Out.bind]
              rfl
            · rw [den.eq_def]; simp only [hf]
              exact sound_bound h
          | _ => rw [wf.eq_def] at h; simp [hf] at h
        | [], h => rw [wf.eq_def] at h; simp [hf] at h
        | _ :: _ :: _, h => rw [wf.eq_def] at h; simp [hf] at h
      | elems =>
        match as, h with
        | [l, i, e], h =>
          cases l with
          | addr a =>
            rw [wf.eq_def] at h; simp only [hf, Bool.and_eq_true] at h
            obtain ⟨t, h1, h2, -, h4⟩ := good E P i h.1.1.2
            obtain ⟨u, i1, i2, -, i4⟩ := good E P e h.2
            refine ⟨.app .assignToIndex [.addr a, t, u], ?_, by simp only [Fine, Fines]; exact ⟨trivial, h2, i2, trivial⟩, fun _ => ⟨_, _, rfl⟩, fun ρ B => ?_⟩
            · simp only [build, builds, h1, i1, Out.bind]
              rfl
            · rw [den.eq_def]; simp only [hf]
              exact sound_elems h.1.1.1.1 (quiet_build P i t h.1.1.1.2 h.1.1.2 h1 h2) (quiet_build P e u h.1.2 h.2 i1 i2) (h4 ρ B) (i4 ρ B)
          | _ => rw [wf.eq_def] at h; simp [hf] at h
        | [], h => rw [wf.eq_def] at h; simp [hf] at h
        | [_], h => rw [wf.eq_def] at h; simp [hf] at h
        | [_, _], h => rw [wf.eq_def] at h; simp [hf] at h
        | _ :: _ :: _ :: _ :: _, h => rw [wf.eq_def] at h; simp [hf] at h
      | exist =>
        match as, h with
        | [l], h =>
          cases l with
          | addr a =>
            rw [wf.eq_def] at h; simp only [hf] at h
            refine ⟨.app .exist [.addr a], ?_, by simp only [Fine, Fines]; exact ⟨trivial, trivial⟩, fun _ => ⟨_, _, rfl⟩, fun ρ B => ?_⟩
            · simp only [build, builds, Out.bind]
              rfl
            · rw [den.eq_def]; simp only [hf]
              exact sound_exist h
          | _ => rw [wf.eq_def] at h; simp [hf] at h
        | [], h => rw [wf.eq_def] at h; simp [hf] at h
        | _ :: _ :: _, h => rw [wf.eq_def] at h; simp [hf] at h
      | delete =>
        have hfo : formOf (n! "delete") = some .delete := rfl
        have hw : ∃ a as', addrsOf as = some (a :: as') := by
          rw [wf.eq_def] at h
          simp only [hf] at h
          split at h
          · exact ⟨_, _, by assumption⟩
          · cases h
        obtain ⟨a, as', ha⟩ := hw
        refine ⟨.app .delete ((a :: as').map .addr), ?_, by simp only [Fine]; exact fines_addrs _, fun _ => ⟨_, _, rfl⟩, fun ρ B => ?_⟩
        · simp only [build, addrs_build P ha, Out.bind]
          exact congrArg orStop (delete_eq P (.addr a) (as'.map .addr))
        · have e : den (.call (formName .delete) as) ρ B =
              if B.isEmpty then none else some (B.filter fun x => !(a :: as').contains x.1, .ok []) := by
            rw [den.eq_def]
            simp only [hf, ha]
          rw [e]
          exact sound_delete (by simp)
      | count =>
        rw [wf.eq_def] at h
        simp only [hf, List.isEmpty_iff] at h
        subst h
        refine ⟨.app .getmsgcount [], ?_, by simp only [Fine, Fines], fun _ => ⟨_, _, rfl⟩, fun ρ B => ?_⟩
        · simp only [build, builds, Out.bind]
          rfl
        · rw [den.eq_def]; simp only [hf]
          exact sound_count
      | addresses =>
        rw [wf.eq_def] at h
        simp only [hf, List.isEmpty_iff] at h
        subst h
        refine ⟨.app .getaddresses [], ?_, by simp only [Fine, Fines], fun _ => ⟨_, _, rfl⟩, fun ρ B => ?_⟩
        · simp only [build, builds, Out.bind]
          rfl
        · rw [den.eq_def]; simp only [hf]
          exact sound_addresses
      | value =>
        match as, h with
        | [e], h =>
          rw [wf.eq_def] at h; simp only [hf] at h
          obtain ⟨t, h1, h2, -, h4⟩ := good E P e h
          refine ⟨.app .value [t], ?_, by simp only [Fine, Fines]; exact ⟨h2, trivial⟩, fun _ => ⟨_, _, rfl⟩, fun ρ B => ?_⟩
          · simp only [build, builds, h1, Out.bind]
            rfl
          · rw [den.eq_def]; simp only [hf]
            exact sound_value (h4 ρ B)
        | [], h => rw [wf.eq_def] at h; simp [hf] at h
        | _ :: _ :: _, h => rw [wf.eq_def] at h; simp [hf] at h
      | quote =>
        match as, h with
        | [l], h =>
          cases l with
          | str s =>
            rw [wf.eq_def] at h; simp only [hf] at h
            refine ⟨.app .quote [.atom (strAtom s)], ?_, by simp only [Fine, Fines]; exact ⟨⟨_, strAtom_val s, simple_copy h⟩, trivial⟩, fun _ => ⟨_, _, rfl⟩, fun ρ B => ?_⟩
            · simp only [build, builds, Out.bind]
              rfl
            · rw [den.eq_def]; simp only [hf]
              exact sound_quote (strAtom_val s)
          | num a =>
            rw [wf.eq_def] at h; simp only [hf] at h
            cases hv : a.val with
            | none => simp [hv] at h
            | some v =>
              simp only [hv, Option.map_some, Option.getD_some] at h
              refine ⟨.app .quote [.atom a], ?_, by simp only [Fine, Fines]; exact ⟨⟨v, hv, simple_copy h⟩, trivial⟩, fun _ => ⟨_, _, rfl⟩, fun ρ B => ?_⟩
              · simp only [build, builds, Out.bind]
                rfl
              · rw [den.eq_def]; simp only [hf, hv]
                exact sound_quote hv
          | _ => rw [wf.eq_def] at h; simp [hf] at h
        | [], h => rw [wf.eq_def] at h; simp [hf] at h
        | _ :: _ :: _, h => rw [wf.eq_def] at h; simp [hf] at h
  | .quoted s, h => by
    refine ⟨.app .quote [.atom (strAtom s)], rfl, by simp only [Fine, Fines]; exact ⟨⟨_, strAtom_val s, simple_copy (by simpa only [wf] using h)⟩, trivial⟩, fun _ => ⟨_, _, rfl⟩, fun ρ B => ?_⟩
    simp only [den]
    exact sound_quote (strAtom_val s)
  | .infix o l r, h => by
    simp only [wf] at h
    cases ho : assignName o with
    | some name =>
      simp only [ho, Bool.and_eq_true] at h
      cases l with
      | addr a =>
        obtain ⟨ha, hr⟩ := h
        have ha : nameOk a = true := ha
        obtain ⟨t, h1, h2, -, h4⟩ := good E P r hr
        obtain ⟨e1, e2, ⟨F, hF⟩, e4⟩ := assignName_eq o name ho
        obtain ⟨f, k1, ⟨e, k2, k3⟩, k4, k5⟩ := sound_call2 E P hF e4 (t := .addr a) (u := t) (by simp only [Fine]) h2
        refine ⟨.app .assign [.addr a, .app f [.addr a, t]], ?_, ?_, fun _ => ⟨_, _, rfl⟩, fun ρ B => ?_⟩
        · simp only [build, h1, Out.bind, e2, if_true, infixAssign, Tm.copy, Out.ofOption, e1, infixFn_eq P k2 k3, (assign_eq P _ _).1]
        · simp only [Fine, Fines] at k4 ⊢
          exact ⟨trivial, k4, trivial⟩
        · simp only [den, ho]
          exact sound_assign ha (k5 ρ B _ _ (sound_addr ha) (h4 ρ))
      | _ => simp at h
    | none =>
      simp only [ho, Bool.and_eq_true] at h
      obtain ⟨⟨h0, hl⟩, hr⟩ := h
      obtain ⟨t, h1, h2, -, h4⟩ := good E P l hl
      obtain ⟨u, i1, i2, -, i4⟩ := good E P r hr
      cases hn : Sem.opName o with
      | some name =>
        obtain ⟨e1, e2, -, ⟨F, hF⟩, e4⟩ := opName_eq o name hn
        obtain ⟨f, k1, ⟨e, k2, k3⟩, k4, k5⟩ := sound_call2 E P hF e4 h2 i2
        refine ⟨.app f [t, u], ?_, k4, fun _ => ⟨_, _, rfl⟩, fun ρ B => ?_⟩
        · simp only [build, h1, i1, Out.bind, e1, e2, Bool.false_eq_true, if_false, infixFn_eq P k2 k3]
        · simp only [den, ho, hn]
          exact k5 ρ B _ _ (h4 ρ B) (i4 ρ)
      | none =>
        have hf : Fine (.app (if (o == .andand) = true then .andalso else .orelse) [t, u]) := by
          simp only [Fine, Fines]
          exact ⟨h2, i2, trivial⟩
        refine ⟨.app (if (o == .andand) = true then .andalso else .orelse) [t, u], ?_, hf, fun _ => ⟨_, _, rfl⟩, fun ρ B => ?_⟩
        · have ho' : o = .andand ∨ o = .oror := by simpa [hn] using h0
          rcases ho' with rfl | rfl <;> simp only [build, h1, i1, Out.bind] <;> rfl
        · simp only [den, ho, hn]
          exact sound_short (h4 ρ B) (i4 ρ)
  | .cond c t f, h => by
    simp only [wf, Bool.and_eq_true] at h
    obtain ⟨t1, h1, h2, -, h4⟩ := good E P c h.1.1
    obtain ⟨t2, i1, i2, -, i4⟩ := good E P t h.1.2
    obtain ⟨t3, j1, j2, -, j4⟩ := good E P f h.2
    refine ⟨.app .cond [t1, t2, t3], ?_, by simp only [Fine, Fines]; exact ⟨h2, i2, j2, trivial⟩, fun _ => ⟨_, _, rfl⟩, fun ρ B => ?_⟩
    · simp only [build, h1, i1, j1, Out.bind]
      rfl
    · simp only [den]
      exact sound_cond (h4 ρ B) (i4 ρ) (j4 ρ)
  | .nth l is, h => by
    simp only [wf, Bool.and_eq_true] at h
    obtain ⟨t, h1, h2, -, h4⟩ := good E P l h.1.1
    obtain ⟨ts, i1, i2, i3, i4⟩ := goods' E P is h.2
    obtain ⟨e, g, k1, k2, k3, k4⟩ := prim_of P (name := n! "nth") rfl
    refine ⟨.app (.prim g) (t :: ts), ?_, by simp only [Fine, Fines]; exact ⟨h2, i2⟩, fun _ => ⟨_, _, rfl⟩, fun ρ B => ?_⟩
    · have hacc : accepts (n! "nth") (t :: ts).length = true := by
        have : 2 ≤ (t :: ts).length := by
          have := h.1.2
          cases is with
          | nil => simp at this
          | cons _ _ => simp [soundL_length i3]
        have e : accepts (n! "nth") (t :: ts).length = (decide (2 ≤ (t :: ts).length) && true) := rfl
        rw [e, decide_eq_true this]
        rfl
      have hn : prefixFn P (n! "nth") (t :: ts) = .app (.prim g) (t :: ts) := by
        simp only [prefixFn, k1]
        rw [if_pos (k3 _ hacc), k2]
      simp only [build, h1, i1, Out.bind]
      rw [← hn]
    · simp only [den]
      have := k4 _ _ _ _ _ (sounds_cons (h4 ρ B) (sounds_of i3 ρ))
      simpa only [andThen_assoc, andThen_ok] using this
  | .not e, h => by
    simp only [wf] at h
    obtain ⟨t, h1, h2, -, h4⟩ := good E P e h
    obtain ⟨f, -, ⟨e, k2, k3⟩, k4, k5⟩ := sound_call1 E P (name := n! "!") rfl rfl h2
    refine ⟨.app f [t], ?_, k4, fun _ => ⟨_, _, rfl⟩, fun ρ B => by simp only [den]; exact k5 ρ B _ (h4 ρ B)⟩
    simp only [build, h1, Out.bind]
    have k2 : lookup [33] = some e := k2
    simp only [k2, k3]
  | .neg e, h => by
    simp only [wf] at h
    obtain ⟨t, h1, h2, -, h4⟩ := good E P e h
    obtain ⟨z, z1, z2⟩ := zeroAtom_val
    obtain ⟨f, -, ⟨e, k2, k3⟩, k4, k5⟩ := sound_call2 E P (name := n! "-") rfl rfl (t := .atom z) (by simp only [Fine]; exact ⟨_, z2, simple_copy rfl⟩) h2
    refine ⟨.app f [.atom z, t], ?_, k4, fun _ => ⟨_, _, rfl⟩, fun ρ B => ?_⟩
    · simp only [build, h1, Out.bind, z1, Out.ofOption]
      have k2 : lookup [45] = some e := k2
      simp only [k2, k3]
    · have := k5 ρ B _ _ (sound_atom z2) (h4 ρ)
      simp only [den]
      have e : pure1 B (valueOf ρ (ITy.i32.val 0)) = some (B, .ok [ITy.i32.val 0]) := rfl
      rw [e, andThen_ok] at this
      exact this
  | .step pre up a, h => by
    simp only [wf] at h
    obtain ⟨t, h1, h2, h3, h4⟩ := sound_stepAddr (P := P) h up
    cases pre with
    | true => exact ⟨t, by simp only [build, if_true]; exact h1, h2, fun _ => h3, fun ρ B => by simp only [den, if_true]; exact h4 ρ B⟩
    | false =>
      obtain ⟨f, k1, -, k4, k5⟩ := sound_call2 E P (name := n! "prog1") rfl rfl (t := .addr a) (by simp only [Fine]) h2
      refine ⟨.app f [.addr a, t], ?_, k4, fun _ => ⟨_, _, rfl⟩, fun ρ B => ?_⟩
      · simp only [build, Bool.false_eq_true, if_false, postfixStep, h1, Out.bind]
        rw [← k1]
      · simp only [den, Bool.false_eq_true, if_false]
        have := k5 ρ B _ _ (sound_addr h) (h4 ρ)
        have e : ∀ B (xs ys : List Val), callD (n! "prog1") B [xs, ys] = pure1 B xs := by
          intro B xs ys
          have : callD (n! "prog1") B [xs, ys] = (checked (some (.ok xs))).map fun r => (B, r) := rfl
          rw [this]
          simp only [checked, pure1]
          split <;> rfl
        simp only [e] at this
        exact this
  | .assign a e, h => by
    simp only [wf, Bool.and_eq_true] at h
    obtain ⟨t, h1, h2, -, h4⟩ := good E P e h.2
    refine ⟨.app .assign [.addr a, t], ?_, by simp only [Fine, Fines]; exact ⟨trivial, h2, trivial⟩, fun _ => ⟨_, _, rfl⟩, fun ρ B => ?_⟩
    · simp only [build, h1, Out.bind, nameOk_target h.1, if_true, (assign_eq P _ _).2.1]
    · simp only [den]
      exact sound_assign h.1 (h4 ρ B)
  | .coalesce a e, h => by
    simp only [wf, Bool.and_eq_true] at h
    obtain ⟨t, h1, h2, -, h4⟩ := good E P e h.2
    refine ⟨.app .cond [.app .bound [.addr a], .addr a, t], ?_, by simp only [Fine, Fines]; exact ⟨⟨trivial, trivial⟩, trivial, h2, trivial⟩,
      fun _ => ⟨_, _, rfl⟩, fun ρ B => ?_⟩
    · simp only [build, h1, Out.bind, coalesce_eq P (nameOk_target h.1)]
    · simp only [den]
      exact sound_coalesce h.1 (h4 ρ) B
  | .coalesceEq a e, h => by
    simp only [wf, Bool.and_eq_true] at h
    obtain ⟨t, h1, h2, -, h4⟩ := good E P e h.2
    refine ⟨.app .assign [.addr a, .app .cond [.app .bound [.addr a], .addr a, t]], ?_,
      by simp only [Fine, Fines]; exact ⟨trivial, ⟨⟨trivial, trivial⟩, trivial, h2, trivial⟩, trivial⟩,
      fun _ => ⟨_, _, rfl⟩, fun ρ B => ?_⟩
    · simp only [build, h1, Out.bind, coalesce_eq P (nameOk_target h.1), orStop, (assign_eq P _ _).2.2]
    · simp only [den]
      exact sound_assign h.1 (sound_coalesce h.1 (h4 ρ) B)
  | .list as, h => by
    simp only [wf] at h
    obtain ⟨ts, h1, h2, h3, h4⟩ := goods' E P as h
    obtain ⟨e, g, k1, k2, k3, k4⟩ := prim_of P (name := n! "list") rfl
    refine ⟨.app (.prim g) ts, ?_, by simpa only [Fine] using h2, fun _ => ⟨_, _, rfl⟩, fun ρ B => by simp only [den]; exact k4 _ _ _ _ _ (sounds_of h3 ρ B)⟩
    have hn : prefixFn P (n! "list") ts = .app (.prim g) ts := by
      simp only [prefixFn, k1]
      rw [if_pos (k3 _ rfl), k2]
    simp only [build, h1, Out.bind]
    rw [← hn]
  | .lam .., h => by simp [wf] at h
  | .bundle .., h => by simp [wf] at h
  | .addrCall .., h => by simp [wf] at h
  | .dot .., h => by simp [wf] at h
  | .strDot .., h => by simp [wf] at h
  | .assignDot .., h => by simp [wf] at h
  | .assignIdx a is e, h => by
    simp only [wf, Bool.and_eq_true] at h
    obtain ⟨ts, h1, h2, h3, -⟩ := goods' E P is h.1.1.2
    obtain ⟨u, i1, i2, -, i4⟩ := good E P e h.2
    have hq := quiet_builds P is ts h.1.1.1.2 h.1.1.2 h1 h2
    have hidx : ∃ w, (match ts with | [i] => i | is => prefixFn P [108, 105, 115, 116] is) = w ∧ Fine w ∧ Quiet w ∧
        ∀ ρ B, Sound (lookups E P) ρ B w (andThen (dens is ρ B) (callD (n! "list"))) := by
      by_cases hone : ∃ t, ts = [t]
      · obtain ⟨t, rfl⟩ := hone
        simp only [Fines] at h2
        simp only [Quiets] at hq
        refine ⟨t, rfl, h2.1, hq.1, fun ρ B => ?_⟩
        cases is with
        | nil => simp at h
        | cons c is =>
          obtain ⟨_, _, e1, hs, h3⟩ := h3
          simp only [List.cons.injEq] at e1
          obtain ⟨rfl, rfl⟩ := e1
          cases is with
          | cons c' is => obtain ⟨_, _, e1, -⟩ := h3; cases e1
          | nil =>
            refine sound_weaken (fun B' r hd => ?_) (hs ρ B)
            simp only [dens, andThen_assoc, andThen_ok] at hd
            cases hdc : den c ρ B with
            | none => rw [hdc] at hd; cases hd
            | some d =>
              obtain ⟨B1, r1⟩ := d
              rw [hdc] at hd
              cases r1 with
              | error c => exact hd
              | ok vs =>
                have : callD (n! "list") B1 [vs] = (checked (short [vs].flatten)).map fun r => (B1, r) := rfl
                simp only [andThen, this, short, List.flatten_cons, List.flatten_nil, List.append_nil] at hd
                split at hd
                · simp only [checked] at hd
                  split at hd
                  · exact hd
                  · cases hd
                · cases hd
      · obtain ⟨e, g, k1, k2, k3, k4⟩ := prim_of P (name := n! "list") rfl
        have hn : prefixFn P (n! "list") ts = .app (.prim g) ts := by
          simp only [prefixFn, k1]
          rw [if_pos (k3 _ rfl), k2]
        refine ⟨.app (.prim g) ts, ?_, by simpa only [Fine] using h2, by simp only [Quiet]; exact ⟨rfl, hq⟩, fun ρ B => k4 _ _ _ _ _ (sounds_of h3 ρ B)⟩
        rw [← hn]
        rcases ts with _ | ⟨t, _ | ⟨t', ts⟩⟩
        · rfl
        · exact absurd ⟨t, rfl⟩ hone
        · rfl
    obtain ⟨w, w1, w2, w3, w4⟩ := hidx
    refine ⟨.app .assignToIndex [.addr a, w, u], ?_, by simp only [Fine, Fines]; exact ⟨trivial, w2, i2, trivial⟩, fun _ => ⟨_, _, rfl⟩, fun ρ B => ?_⟩
    · simp only [build, h1, i1, Out.bind, toIndex, nameOk_target h.1.1.1.1.1, if_true]
      rw [← w1]
      rcases ts with _ | ⟨t, _ | ⟨t', ts⟩⟩ <;> rfl
    · simp only [den]
      exact sound_elems h.1.1.1.1.1 w3 (quiet_build P e u h.1.2 h.2 i1 i2) (w4 ρ B) (i4 ρ B)
  | .assignRange a x y e, h => by
    simp only [wf, Bool.and_eq_true] at h
    obtain ⟨tx, x1, x2, -, x4⟩ := good E P x h.1.1.1.1.2
    obtain ⟨ty, y1, y2, -, y4⟩ := good E P y h.1.1.2
    obtain ⟨u, i1, i2, -, i4⟩ := good E P e h.2
    obtain ⟨f, k1, ⟨en, k2, k3⟩, k4, k5⟩ := sound_call2 E P (name := n! "aseq") rfl rfl x2 y2
    have hq : Quiet (.app f [tx, ty]) := by
      obtain ⟨_, g, p1, p2, -⟩ := prim_of P (name := n! "aseq") rfl
      rw [k2] at p1
      injection p1 with p1
      subst p1
      rw [k3] at p2
      subst p2
      simp only [Quiet, Quiets]
      exact ⟨rfl, quiet_build P x tx h.1.1.1.1.1.2 h.1.1.1.1.2 x1 x2, quiet_build P y ty h.1.1.1.2 h.1.1.2 y1 y2, trivial⟩
    refine ⟨.app .assignToIndex [.addr a, .app f [tx, ty], u], ?_, by simp only [Fine, Fines] at k4 ⊢; exact ⟨trivial, k4, i2, trivial⟩, fun _ => ⟨_, _, rfl⟩, fun ρ B => ?_⟩
    · have k1 : prefixFn P [97, 115, 101, 113] [tx, ty] = .app f [tx, ty] := k1
      simp only [build, x1, y1, i1, Out.bind, toIndex, nameOk_target h.1.1.1.1.1.1, if_true, k1]
      rfl
    · simp only [den]
      exact sound_elems h.1.1.1.1.1.1 hq (quiet_build P e u h.1.2 h.2 i1 i2) (k5 ρ B _ _ (x4 ρ B) (y4 ρ)) (i4 ρ B)
  | .assignRange3 a x y z e, h => by
    simp only [wf, Bool.and_eq_true] at h
    obtain ⟨tx, x1, x2, -, x4⟩ := good E P x h.1.1.1.1.1.1.2
    obtain ⟨ty, y1, y2, -, y4⟩ := good E P y h.1.1.1.1.2
    obtain ⟨tz, z1, z2, -, z4⟩ := good E P z h.1.1.2
    obtain ⟨u, i1, i2, -, i4⟩ := good E P e h.2
    obtain ⟨en, g, k1, k2, k3, k4⟩ := prim_of P (name := n! "aseq") rfl
    have hn : prefixFn P [97, 115, 101, 113] [tx, tz, ty] = .app (.prim g) [tx, tz, ty] := by
      have k1 : lookup [97, 115, 101, 113] = some en := k1
      simp only [prefixFn, k1]
      rw [if_pos (k3 [tx, tz, ty].length rfl), k2]
    have hq : Quiet (.app (.prim g) [tx, tz, ty]) := by
      simp only [Quiet, Quiets]
      exact ⟨rfl, quiet_build P x tx h.1.1.1.1.1.1.1.2 h.1.1.1.1.1.1.2 x1 x2, quiet_build P z tz h.1.1.1.2 h.1.1.2 z1 z2,
        quiet_build P y ty h.1.1.1.1.1.2 h.1.1.1.1.2 y1 y2, trivial⟩
    refine ⟨.app .assignToIndex [.addr a, .app (.prim g) [tx, tz, ty], u], ?_,
      by simp only [Fine, Fines]; exact ⟨trivial, ⟨x2, z2, y2, trivial⟩, i2, trivial⟩, fun _ => ⟨_, _, rfl⟩, fun ρ B => ?_⟩
    · simp only [build, x1, y1, z1, i1, Out.bind, toIndex, nameOk_target h.1.1.1.1.1.1.1.1, if_true, hn]
      rfl
    · simp only [den]
      have := k4 _ ρ B _ _ (sounds_cons (x4 ρ B) fun B => sounds_two (z4 ρ B) (y4 ρ))
      simp only [andThen_assoc, andThen_ok] at this
      exact sound_elems h.1.1.1.1.1.1.1.1 hq (quiet_build P e u h.1.2 h.2 i1 i2) this (i4 ρ B)
  | .applyFn p b as, h => by
    simp only [wf, Bool.and_eq_true] at h
    obtain ⟨ts, h1, h2, h3, hb⟩ := goods' E P b h.1.1.2
    obtain ⟨body, k1, k2, k3, k4⟩ := body_good E P h1 h2 h3 hb h.1.1.2 h.1.1.1.1 h.1.1.1.2
    obtain ⟨us, i1, i2, i3, -⟩ := goods' E P as h.2
    refine ⟨.app .apply (.fn p.names body :: us), ?_, by simp only [Fine, Fines]; exact ⟨⟨k2, k3⟩, i2⟩, fun _ => ⟨_, _, rfl⟩, fun ρ B => ?_⟩
    · simp only [build, h1, i1, Out.bind, lam_eq P p k1]
      have hne : us ≠ [] := by
        rintro rfl
        have := soundL_length i3
        cases as with
        | nil => simp at h
        | cons _ _ => simp at this
      rw [← apply_eq P _ us hne]
    · simp only [den]
      exact sound_applyLam (seq_sound k4) i3
  | .value s, h => by
    simp only [wf] at h
    refine ⟨.app .value [.atom (strAtom s)], rfl, by simp only [Fine, Fines]; exact ⟨⟨_, strAtom_val s, simple_copy h⟩, trivial⟩, fun _ => ⟨_, _, rfl⟩, fun ρ B => ?_⟩
    simp only [den]
    exact sound_value (sound_atom (strAtom_val s))
  | .valueAddr a, h => by
    simp only [wf] at h
    refine ⟨.app .value [.addr a], rfl, by simp only [Fine, Fines]; exact ⟨trivial, trivial⟩, fun _ => ⟨_, _, rfl⟩, fun ρ B => ?_⟩
    simp only [den]
    exact sound_value (sound_addr h)
theorem goodFn (E : Text.Env) (P : Text.Printf) : ∀ c, wfFn c = true → GoodFn E P c
  | .str f, h => by
    simp only [wfFn, Bool.and_eq_true, Option.isSome_iff_exists] at h
    obtain ⟨⟨F, hF⟩, hs⟩ := h
    obtain ⟨e, g, k1, k2, -, k4⟩ := prim_of P hF
    have hn : Named (lookups E P) f := ⟨g, by show funcOf P f = _; simp only [funcOf, k1, Option.map_some, k2], k4 _⟩
    refine ⟨.atom (strAtom f), by simp only [build], by simp only [Fine]; exact ⟨_, strAtom_val f, simple_copy hs⟩, fun ρ => app_name hn (strAtom_val f), fun cs ts ρ B hcs => ?_⟩
    have hfo : formOf (n! "apply") = some .apply := rfl
    rw [den.eq_def]; simp only [hfo]
    exact sound_applyName hn (strAtom_val f) hcs
  | .lam p b, h => by
    simp only [wfFn, Bool.and_eq_true] at h
    obtain ⟨ts, h1, h2, h3, hb⟩ := goods' E P b h.2
    obtain ⟨body, k1, k2, k3, k4⟩ := body_good E P h1 h2 h3 hb h.2 h.1.1 h.1.2
    refine ⟨.fn p.names body, by simp only [build, h1, Out.bind, lam_eq P p k1], by simp only [Fine]; exact ⟨k2, k3⟩, fun ρ => app_lam (seq_sound k4), fun cs ts ρ B hcs => ?_⟩
    have hfo : formOf (n! "apply") = some .apply := rfl
    rw [den.eq_def]; simp only [hfo]
    exact sound_applyLam (seq_sound k4) hcs
  | .num .., h | .addr .., h | .paren .., h | .call .., h | .quoted .., h | .infix .., h | .cond .., h | .nth .., h | .not .., h | .neg .., h
  | .step .., h | .assign .., h | .coalesce .., h | .coalesceEq .., h | .list .., h | .bundle .., h | .addrCall .., h | .dot .., h
  | .strDot .., h | .assignDot .., h | .assignIdx .., h | .assignRange .., h | .assignRange3 .., h | .applyFn .., h | .value .., h
  | .valueAddr .., h => by simp [wfFn] at h
theorem goods' (E : Text.Env) (P : Text.Printf) : ∀ cs, wfs cs = true → Goods E P cs
  | [], _ => ⟨[], by simp only [builds], by simp only [Fines], rfl, fun _ => trivial⟩
  | c :: cs, h => by
    simp only [wfs, Bool.and_eq_true] at h
    obtain ⟨t, h1, h2, h3, h4⟩ := good E P c h.1
    obtain ⟨ts, i1, i2, i3, i4⟩ := goods' E P cs h.2
    refine ⟨t :: ts, by simp only [builds, h1, i1, Out.bind], by simp only [Fines]; exact ⟨h2, i2⟩, ⟨t, ts, rfl, h4, i3⟩, fun he => ?_⟩
    simp only [List.all_cons, Bool.and_eq_true] at he
    exact ⟨h3 he.1, i4 he.2⟩
end

set_option maxRecDepth 4000 in
theorem item_good (E : Text.Env) (P : Text.Printf) (c : Cst) (h : wf c = true) (hi : c.isItem = true) :
    ∃ f as, buildItem P c = .ok (.app f as) ∧ Fine (.app f as) ∧ ∀ ρ B, Sound (lookups E P) ρ B (.app f as) (den c ρ B) := by
  obtain ⟨t, h1, h2, h3, h4⟩ := good E P c h
  have plain : c.isExpr = true → ∃ f as, build P c = .ok (.app f as) ∧ Fine (.app f as) ∧ ∀ ρ B, Sound (lookups E P) ρ B (.app f as) (den c ρ B) := by
    intro he
    obtain ⟨f, as, rfl⟩ := h3 he
    exact ⟨f, as, h1, h2, h4⟩
  have wrap : ∃ f as, ((build P c).bind fun t => .ok (prefixFn P [112, 114, 111, 103, 110] [t])) = .ok (.app f as) ∧ Fine (.app f as) ∧
      ∀ ρ B, Sound (lookups E P) ρ B (.app f as) (den c ρ B) := by
    obtain ⟨f, k1, -, k4, k5⟩ := sound_call1 E P (name := n! "progn") rfl rfl h2
    exact ⟨f, [t], by rw [h1]; simp only [Out.bind]; rw [← k1], k4, fun ρ B => sound_same (name := n! "progn") (fun _ _ => rfl) (h4 ρ B) (k5 ρ B _ (h4 ρ B))⟩
  cases c with
  | num a => exact wrap
  | addr a => exact wrap
  | str s => cases hi
  | lam p b => cases hi
  | _ => exact plain rfl

theorem items_good (E : Text.Env) (P : Text.Printf) : ∀ cs acc, wfs cs = true → (∀ c ∈ cs, c.isItem = true) →
    ∃ ts, buildItems P acc cs = .ok (acc ++ ts) ∧ Fines ts ∧ Bodies ts ∧ SoundL (lookups E P) cs ts
  | [], acc, _, _ => ⟨[], by simp [buildItems], by simp only [Fines], trivial, rfl⟩
  | c :: cs, acc, h, hi => by
    simp only [wfs, Bool.and_eq_true] at h
    obtain ⟨f, as, h1, h2, h3⟩ := item_good E P c h.1 (hi c (by simp))
    obtain ⟨ts, k1, k2, k3, k4⟩ := items_good E P cs (acc ++ [.app f as]) h.2 fun c hc => hi c (by simp [hc])
    refine ⟨.app f as :: ts, ?_, by simp only [Fines]; exact ⟨h2, k2⟩, ⟨⟨f, as, rfl⟩, k3⟩, ⟨.app f as, ts, rfl, h3, k4⟩⟩
    rw [List.append_assoc] at k1
    simp only [buildItems, h1, Out.bind]
    cases acc <;> exact k1

theorem eval_program (E : Text.Env) (P : Text.Printf) : ∀ cs ts is (st : St) B B' r hdr, SoundL (lookups E P) cs ts → LoadedAll st ts (is.map .expr) →
    EnvRep st none [] → Rep hdr B st.bndl → program cs B = some (B', r) →
    ∃ st' code v n0, (∀ n, n0 ≤ n → evalList (lookups E P) n is st = some (st', code, v)) ∧ Rep hdr B' st'.bndl ∧ Outcome r code v
  | [], ts, is, st, B, B', r, hdr, hi, hl, henv, hr, hp => by
    simp only [SoundL] at hi
    subst hi
    simp only [LoadedAll, List.map_eq_nil_iff] at hl
    subst hl
    simp only [program, denSeq, Option.some.injEq, Prod.mk.injEq] at hp
    obtain ⟨rfl, rfl⟩ := hp
    exact ⟨st, 0, none, 0, fun n _ => rfl, hr, rfl, rfl, rfl⟩
  | c :: cs, ts, is, st, B, B', r, hdr, hi, hl, henv, hr, hp => by
    obtain ⟨t, ts', rfl, hs, hi⟩ := hi
    simp only [LoadedAll] at hl
    obtain ⟨a, as', e, hl1, hl2⟩ := hl
    cases is with
    | nil => simp at e
    | cons i is =>
      simp only [List.map_cons, List.cons.injEq] at e
      obtain ⟨rfl, rfl⟩ := e
      cases cs with
      | nil =>
        simp only [SoundL] at hi
        subst hi
        simp only [LoadedAll, List.map_eq_nil_iff] at hl2
        subst hl2
        simp only [program, denSeq] at hp
        obtain ⟨st', code, v, ⟨n0, h1⟩, -, h2, h3⟩ := hs [] B B' r hp st none _ hdr henv hl1 hr
        exact ⟨st', code, v, n0, fun n hn => evalArg_mono (run_mono _ hn) _ _ _ _ h1, h2, h3⟩
      | cons c' cs =>
        have hne : ∃ j js, is = j :: js := by
          obtain ⟨t', ts'', rfl, -⟩ := hi
          cases is with
          | nil => simp [LoadedAll] at hl2
          | cons j js => exact ⟨j, js, rfl⟩
        obtain ⟨j, js, rfl⟩ := hne
        have step : ∀ n, evalList (lookups E P) n (i :: j :: js) st = (evalTop (lookups E P) n st i).bind fun r =>
            if r.2.1 ≠ 0 then some (r.1, r.2.1, none) else evalList (lookups E P) n (j :: js) r.1 := fun _ => rfl
        have hp : andThen (den c [] B) (fun B _ => program (c' :: cs) B) = some (B', r) := by
          rw [program, denSeq] at hp
          exact hp
        cases hd : den c [] B with
        | none => rw [hd] at hp; cases hp
        | some q =>
          obtain ⟨B1, r1⟩ := q
          obtain ⟨s1, code, v, ⟨n0, h1⟩, hg, h2, h3⟩ := hs [] B B1 r1 hd st none _ hdr henv hl1 hr
          have h1' : ∀ n, n0 ≤ n → evalTop (lookups E P) n st i = some (s1, code, v) :=
            fun n hn => evalArg_mono (run_mono _ hn) none st (some (.expr i)) _ h1
          rw [hd] at hp
          cases r1 with
          | error c0 =>
            simp only [andThen, Option.some.injEq, Prod.mk.injEq] at hp
            obtain ⟨rfl, rfl⟩ := hp
            obtain ⟨hc, rfl⟩ := h3
            refine ⟨s1, code, none, n0, fun n hn => ?_, h2, hc, rfl⟩
            rw [step, h1' n hn]
            exact if_pos hc
          | ok vs =>
            obtain ⟨rfl, -⟩ := h3
            obtain ⟨s2, code', v', m0, k1, k2, k3⟩ := eval_program E P (c' :: cs) ts' (j :: js) s1 B1 B' r hdr hi (loadedAll_grows hg _ _ hl2) (henv.grows hg) h2 hp
            refine ⟨s2, code', v', max n0 m0, fun n hn => ?_, k2, k3⟩
            rw [step, h1' n (by omega)]
            have := k1 n (by omega)
            simp only [Option.bind_some, ne_eq, not_true, if_false]
            exact this

end Libo.Sem

namespace Libo.Props
open Libo Libo.Expr Libo.Sem Libo.Syn

/-- **C61 (partial).**  Take a text of the covered part of the language (`Sem.wf`: numbers, strings, addresses, variables, calls of the functions
in `Sem.funs`, operators, conditionals, elements of lists, `-x`, `!x`, `++`, `--`, assignments, `??`, `??=`, lists, application of lambda
expressions, assignments to elements, values by name in backquotes, and the functions of `Sem.forms` by name, among them `map`, the reductions, `exists`, `delete` and `value`), and
a bundle in memory with the bindings `B`.  If the specification says that the text turns `B` into `B'` with result `r`, then parsing and evaluating it leaves a bundle
in memory with the bindings `B'` and the same header, and ends with these values and code 0, or with this error code.

Missing: functions and notations that the specification does not cover (among them nested bundles, assignment to elements with expressions for the
positions or the values that themselves change the bundle, and the functions of the C library), and the cases in which it gives no result, where the code has undefined behaviour, computes something that is
not a number (NaN), ignores an error of a function that `map` or a reduction applies, or needs more than 2 GB. -/
theorem C61_program_partial (E : Text.Env) (P : Text.Printf) (p : Prog) (hp : p.ok) (hw : wfs p.items = true) (hdr : Bytes) (B B' : Sem.Binds)
    (b : Option (Int × Option Bytes)) (hb : Rep hdr B b) (r : R) (h : program p.items B = some (B', r)) :
    ∃ st code out n0, (∀ n, n0 ≤ n → evalToks E P n b p.toks = some (some (st, code, out))) ∧ Rep hdr B' st.bndl ∧ Outcome r code out := by
  obtain ⟨ts, h1, h2, h3, h4⟩ := items_good E P p.items [] hw hp.2.2
  obtain ⟨k1, -, k3⟩ := loadAll_loaded ts (St.start b) h2 h3
  obtain ⟨st, code, out, n0, g1, g2, g3⟩ := eval_program E P p.items ts _ (loadAll ts (St.start b)).1 B B' r hdr h4 k1 (envRep_none _) (by rw [k3]; exact hb) h
  refine ⟨st, code, out, n0, fun n hn => ?_, g2, g3⟩
  have hparse : parseExpr P p.toks = .ok ts := by
    simp only [parseExpr, (C59_parse_iff p.toks p).mpr ⟨rfl, hp⟩]
    simpa using h1
  simp only [evalToks, hparse]
  rw [g1 n hn]
  rfl

/-- `/x = 1 + 2 * 3, /y = [/x, 4], /x += 1, /y[[0]] < /x ? reverse(/y) : 0` -/
def sampleText : Prog := ⟨false, [.assign (n! "/x") (.infix .add (.num (lit 1)) (.infix .mul (.num (lit 2)) (.num (lit 3)))),
  .assign (n! "/y") (.list [.addr (n! "/x"), .num (lit 4)]), .infix .addEq (.addr (n! "/x")) (.num (lit 1)),
  .cond (.infix .lt (.nth (.addr (n! "/y")) [.num (lit 0)]) (.addr (n! "/x"))) (.call (n! "reverse") [.addr (n! "/y")]) (.num (lit 0))]⟩

set_option exponentiation.threshold 3000
set_option maxRecDepth 20000

-- it meets the conditions of `C61_program_partial`, and the specification gives `4, 7`
example : sampleText.ok ∧ wfs sampleText.items = true ∧ Rep plainHeader [] (some (0, none)) ∧
    program sampleText.items [] = some ([(n! "/x", [ITy.i32.val 8]), (n! "/y", [ITy.i32.val 7, ITy.i32.val 4])], .ok [ITy.i32.val 4, ITy.i32.val 7]) := by
  refine ⟨((C59_parse_iff sampleText.toks _).mp rfl).2, rfl, ⟨rfl, .inr ⟨rfl, rfl, rfl⟩⟩, ?_⟩
  rfl

-- so the code gives that, and the bundle has these bindings
example (E : Text.Env) (P : Text.Printf) : ∃ st out n0, (∀ n, n0 ≤ n → evalToks E P n (some (0, none)) sampleText.toks = some (some (st, 0, out))) ∧
    Rep plainHeader [(n! "/x", [ITy.i32.val 8]), (n! "/y", [ITy.i32.val 7, ITy.i32.val 4])] st.bndl ∧ Holds out [ITy.i32.val 4, ITy.i32.val 7] := by
  obtain ⟨st, code, out, n0, h1, h2, h3, h4, -⟩ := C61_program_partial E P sampleText ((C59_parse_iff sampleText.toks _).mp rfl).2 rfl plainHeader []
    [(n! "/x", [ITy.i32.val 8]), (n! "/y", [ITy.i32.val 7, ITy.i32.val 4])] (some (0, none)) ⟨rfl, .inr ⟨rfl, rfl, rfl⟩⟩
    (.ok [ITy.i32.val 4, ITy.i32.val 7]) rfl
  subst h3
  exact ⟨st, out, n0, h1, h2, h4⟩

-- an error: the second of three expressions reads an address without a message; the first one has been carried out
example : program [.assign (n! "/x") (.num (lit 1)), .infix .mul (.addr (n! "/nosuch")) (.num (lit 2)), .assign (n! "/x") (.num (lit 2))] [] =
    some ([(n! "/x", [ITy.i32.val 1])], .error 0x102) := rfl

/-- `/x = 1. / 4, /w = join("-", split(",", "a,b,,c")), /x += 7 % 4, max([/x, 2, strlen(/w)])` -/
def sampleText2 : Prog := ⟨false, [.assign (n! "/x") (.infix .div (.num (.mk 100 false (.bits 0x3ff0000000000000))) (.num (lit 4))),
  .assign (n! "/w") (.call (n! "join") [.str (n! "-"), .call (n! "split") [.str (n! ","), .str (n! "a,b,,c")]]),
  .infix .addEq (.addr (n! "/x")) (.infix .mod (.num (lit 7)) (.num (lit 4))),
  .call (n! "max") [.list [.addr (n! "/x"), .num (lit 2), .call (n! "strlen") [.addr (n! "/w")]]]]⟩

-- the specification gives 3.25 for `/x`, `a-b-c` for `/w`, and 5
example : sampleText2.ok ∧ wfs sampleText2.items = true ∧
    program sampleText2.items [] = some ([(n! "/x", [.num 100 0x400a000000000000]), (n! "/w", [.str (n! "a-b-c")])], .ok [ITy.i64.val 5]) :=
  ⟨((C59_parse_iff sampleText2.toks _).mp rfl).2, rfl, rfl⟩

/-- `/x = [1, 2, 3], /y = map(lambda([a, b], /n = a, a * b + 1), /x, [4, 5, 6, 7]), /z = lambda([c], c - lreduce(+, /y, c))(10),
rreduce(lambda([a, b], a - b), /y)` -/
def sampleText3 : Prog := ⟨false, [.assign (n! "/x") (.list [.num (lit 1), .num (lit 2), .num (lit 3)]),
  .assign (n! "/y") (.call (n! "map") [.lam (.many [n! "a", n! "b"]) [.assign (n! "/n") (.str (n! "a")),
    .infix .add (.infix .mul (.str (n! "a")) (.str (n! "b"))) (.num (lit 1))],
    .addr (n! "/x"), .list [.num (lit 4), .num (lit 5), .num (lit 6), .num (lit 7)]]),
  .assign (n! "/z") (.applyFn (.many [n! "c"]) [.infix .sub (.str (n! "c")) (.call (n! "lreduce") [.str (n! "+"), .addr (n! "/y"), .str (n! "c")])] [.num (lit 10)]),
  .call (n! "rreduce") [.lam (.many [n! "a", n! "b"]) [.infix .sub (.str (n! "a")) (.str (n! "b"))], .addr (n! "/y")]]⟩

-- the specification gives 5, 11, 19 for `/y`, -35 for `/z`, and 5 - (11 - 19)
example : sampleText3.ok ∧ wfs sampleText3.items = true ∧
    program sampleText3.items [] = some ([(n! "/x", [ITy.i32.val 1, ITy.i32.val 2, ITy.i32.val 3]), (n! "/n", [ITy.i32.val 3]),
      (n! "/y", [ITy.i32.val 5, ITy.i32.val 11, ITy.i32.val 19]), (n! "/z", [ITy.i32.val (-35)])], .ok [ITy.i32.val 13]) :=
  ⟨((C59_parse_iff sampleText3.toks _).mp rfl).2, rfl, rfl⟩

/-- ``/x = [1, 2, 3, 4], /x[[1, 3]] = [7, 8], /x[[0 : 2]] = /x[[3]], /p = "/y", /n = "/x", delete(/q, /p),
[getmsgcount(), exists(/p), value("/x"), length(`/n`)]`` -/
def sampleText4 : Prog := ⟨false, [.assign (n! "/x") (.list [.num (lit 1), .num (lit 2), .num (lit 3), .num (lit 4)]),
  .assignIdx (n! "/x") [.num (lit 1), .num (lit 3)] (.list [.num (lit 7), .num (lit 8)]),
  .assignRange (n! "/x") (.num (lit 0)) (.num (lit 2)) (.nth (.addr (n! "/x")) [.num (lit 3)]),
  .assign (n! "/p") (.str (n! "/y")), .assign (n! "/n") (.str (n! "/x")), .call (n! "delete") [.addr (n! "/q"), .addr (n! "/p")],
  .list [.call (n! "getmsgcount") [], .call (n! "exists") [.addr (n! "/p")], .call (n! "value") [.str (n! "/x")], .call (n! "length") [.valueAddr (n! "/n")]]]⟩

-- the specification gives 8, 8, 8, 8 for `/x`, and 2, false, 8, 8, 8, 8, 4
example : sampleText4.ok ∧ wfs sampleText4.items = true ∧
    program sampleText4.items [] = some ([(n! "/x", [ITy.i32.val 8, ITy.i32.val 8, ITy.i32.val 8, ITy.i32.val 8]), (n! "/n", [.str (n! "/x")])],
      .ok [ITy.i32.val 2, .bare 70, ITy.i32.val 8, ITy.i32.val 8, ITy.i32.val 8, ITy.i32.val 8, ITy.i32.val 4]) :=
  ⟨((C59_parse_iff sampleText4.toks _).mp rfl).2, rfl, rfl⟩

/-- `/x = scale([0, 5, 10], 0, 10, 200, 300), /s = join("|", /x), /c = cross([1, 0, 0], [0, 1, 0]), [det([1, 2], [3, 4]), float32(16777217), string(strlen(/s))]` -/
def sampleText5 : Prog := ⟨false, [
  .assign (n! "/x") (.call (n! "scale") [.list [.num (lit 0), .num (lit 5), .num (lit 10)], .num (lit 0), .num (lit 10), .num (lit 200), .num (lit 300)]),
  .assign (n! "/s") (.call (n! "join") [.str (n! "|"), .addr (n! "/x")]),
  .assign (n! "/c") (.call (n! "cross") [.list [.num (lit 1), .num (lit 0), .num (lit 0)], .list [.num (lit 0), .num (lit 1), .num (lit 0)]]),
  .list [.call (n! "det") [.list [.num (lit 1), .num (lit 2)], .list [.num (lit 3), .num (lit 4)]], .call (n! "float32") [.num (lit 16777217)],
    .call (n! "string") [.call (n! "strlen") [.addr (n! "/s")]]]]⟩

-- the specification gives 200, 250, 300 for `/x`, `200|250|300` for `/s`, 0, 0, 1 for `/c`, and -2, 16777216 as a float, and the text `11`
example : sampleText5.ok ∧ wfs sampleText5.items = true ∧
    program sampleText5.items [] = some ([(n! "/x", [ITy.i32.val 200, ITy.i32.val 250, ITy.i32.val 300]), (n! "/s", [.str (n! "200|250|300")]),
      (n! "/c", [ITy.i32.val 0, ITy.i32.val 0, ITy.i32.val 1])], .ok [.num 100 0xC000000000000000, .num 102 0x4B800000, .str (n! "11")]) :=
  ⟨((C59_parse_iff sampleText5.toks _).mp rfl).2, rfl, rfl⟩

end Libo.Props
