import Verif.ExprDoc
import Verif.TextRound
/-!
# C105: the documentation of functions
-/

namespace Libo.Props.EDocP
open Libo Libo.EDoc

/-! ## Specification -/

/-- The kinds of arguments in the order of their bits. -/
def kinds : List (Nat × Bytes) :=
  [(0, n! "number"), (1, n! "list"), (2, n! "string"), (3, n! "atom"), (4, n! "expression"), (5, n! "OSC address"), (6, n! "boolean"), (7, n! "function")]

/-- The names of the kinds that the bits say, with commas in between. -/
def kindsText (types : Nat) : Bytes := [44, 32].intercalate ((kinds.filter fun k => types.testBit k.1).map (·.2))

/-- What can be asked about a function. -/
inductive Key where
  | name | signature | docstring | numRequired | numOptional | categories
  | requiredName (i : Nat) | requiredTypes (i : Nat) | optionalName (i : Nat) | optionalTypes (i : Nat)

/-- Its address; arguments count from 1. -/
def Key.addr : Key → Bytes
  | .name => n! "/doc/function/name"
  | .signature => n! "/doc/function/signature"
  | .docstring => n! "/doc/function/docstring"
  | .numRequired => n! "/doc/function/num_required_args"
  | .numOptional => n! "/doc/function/num_optional_args"
  | .categories => n! "/doc/function/categories"
  | .requiredName i => n! "/doc/function/arg/required/name/" ++ Text.dec i
  | .requiredTypes i => n! "/doc/function/arg/required/types/" ++ Text.dec i
  | .optionalName i => n! "/doc/function/arg/optional/name/" ++ Text.dec i
  | .optionalTypes i => n! "/doc/function/arg/optional/types/" ++ Text.dec i

/-- The argument with number `i` has this name and these types. -/
def HasArg (names : Option (List (Option Bytes))) (types : Option (List Nat)) (n i : Nat) (s : Bytes) (t : Nat) : Prop :=
  1 ≤ i ∧ i ≤ n ∧ ∃ ns ts, names = some ns ∧ types = some ts ∧ ns[i - 1]? = some (some s) ∧ ts[i - 1]? = some t

/-- The answer. -/
def Says (r : DRec) : Key → List DVal → Prop
  | .name, v => v = [.str r.name]
  | .signature, v => v = [.str r.sig]
  | .docstring, v => v = [.str r.doc]
  | .numRequired, v => v = [.int r.nreq]
  | .numOptional, v => v = [.int r.nopt]
  | .categories, v => v = r.cats.map .str
  | .requiredName i, v => ∃ s t, HasArg r.req r.reqTypes r.nreq.toNat i s t ∧ v = [.str s]
  | .requiredTypes i, v => ∃ s t, HasArg r.req r.reqTypes r.nreq.toNat i s t ∧ v = [.str (kindsText t)]
  | .optionalName i, v => ∃ s t, HasArg r.opt r.optTypes r.nopt.natAbs i s t ∧ v = [.str s]
  | .optionalTypes i, v => ∃ s t, HasArg r.opt r.optTypes r.nopt.natAbs i s t ∧ v = [.str (kindsText t)]

/-- Each of `n` arguments has a name or NULL, and each name comes with types: some kinds, with a text of at most 60 bytes. -/
def Complete (names : Option (List (Option Bytes))) (types : Option (List Nat)) (n : Nat) : Prop :=
  ∀ ns, names = some ns → n ≤ ns.length ∧ ∀ i s, i < n → ns[i]? = some (some s) →
    ∃ ts t, types = some ts ∧ ts[i]? = some t ∧ (∃ k ∈ kinds, t.testBit k.1 = true) ∧ (kindsText t).length ≤ 60

/-! ## Types -/

theorem and_mask (t k : Nat) : t &&& 2 ^ k = if t.testBit k then 2 ^ k else 0 := by
  refine Nat.eq_of_testBit_eq fun i => ?_
  rw [Nat.testBit_and, Nat.testBit_two_pow]
  by_cases h : k = i
  · subst h; cases ht : t.testBit k <;> simp
  · cases t.testBit k <;> simp [h, Nat.testBit_two_pow]

/-- All cases of the eight bits. -/
theorem typesText_spec (t : Nat) : typesText t =
    if (kinds.any fun k => t.testBit k.1) ∧ (kindsText t).length ≤ 60 then some (kindsText t) else none := by
  have h0 := and_mask t 0; have h1 := and_mask t 1; have h2 := and_mask t 2; have h3 := and_mask t 3
  have h4 := and_mask t 4; have h5 := and_mask t 5; have h6 := and_mask t 6; have h7 := and_mask t 7
  simp only [Nat.reducePow] at h0 h1 h2 h3 h4 h5 h6 h7
  simp only [typesText, List.foldl_cons, List.foldl_nil, typeStep, h0, h1, h2, h3, h4, h5, h6, h7, kindsText, kinds, List.filter_cons, List.filter_nil,
    List.any_cons, List.any_nil]
  generalize t.testBit 0 = b0
  generalize t.testBit 1 = b1
  generalize t.testBit 2 = b2
  generalize t.testBit 3 = b3
  generalize t.testBit 4 = b4
  generalize t.testBit 5 = b5
  generalize t.testBit 6 = b6
  generalize t.testBit 7 = b7
  clear h0 h1 h2 h3 h4 h5 h6 h7 t
  revert b0 b1 b2 b3 b4 b5 b6 b7
  decide +kernel

theorem kindsText_short (t : Nat) (h : t.testBit 7 = false) : (kindsText t).length ≤ 60 := by
  simp only [kindsText, kinds, List.filter_cons, List.filter_nil, h]
  generalize t.testBit 0 = b0
  generalize t.testBit 1 = b1
  generalize t.testBit 2 = b2
  generalize t.testBit 3 = b3
  generalize t.testBit 4 = b4
  generalize t.testBit 5 = b5
  generalize t.testBit 6 = b6
  clear h t
  revert b0 b1 b2 b3 b4 b5 b6
  decide +kernel

theorem any_kind (t : Nat) (h : t % 128 ≠ 0) : (kinds.any fun k => t.testBit k.1) = true := by
  refine Decidable.byContradiction fun hn => h ?_
  simp only [kinds, List.any_cons, List.any_nil, Bool.or_eq_true, not_or, Bool.not_eq_true] at hn
  obtain ⟨h0, h1, h2, h3, h4, h5, h6, _⟩ := hn
  refine Nat.eq_of_testBit_eq fun i => ?_
  rw [show (128 : Nat) = 2 ^ 7 from rfl, Nat.testBit_mod_two_pow, Nat.zero_testBit]
  by_cases hi : i < 7
  · have : i = 0 ∨ i = 1 ∨ i = 2 ∨ i = 3 ∨ i = 4 ∨ i = 5 ∨ i = 6 := by omega
    rcases this with rfl | rfl | rfl | rfl | rfl | rfl | rfl <;> simp [*]
  · simp [hi]

theorem typesText_ok (t : Nat) (h : t % 128 ≠ 0) (h7 : t.testBit 7 = false) : typesText t = some (kindsText t) := by
  rw [typesText_spec, if_pos ⟨any_kind t h, kindsText_short t h7⟩]

theorem typesText_eq (t : Nat) : typesText t =
    if (∃ k ∈ kinds, t.testBit k.1 = true) ∧ (kindsText t).length ≤ 60 then some (kindsText t) else none := by
  rw [typesText_spec]
  have e := List.any_eq_true (l := kinds) (p := fun k => t.testBit k.1)
  by_cases h : (∃ k ∈ kinds, t.testBit k.1 = true) ∧ (kindsText t).length ≤ 60
  · rw [if_pos h, if_pos ⟨e.mpr h.1, h.2⟩]
  · rw [if_neg h, if_neg fun h' => h ⟨e.mp h'.1, h'.2⟩]

/-! ## Arguments -/

theorem dec_inj {a b : Nat} (h : Text.dec a = Text.dec b) : a = b := by
  have := congrArg Text.digitsVal h
  rwa [Text.dec_val, Text.dec_val] at this

theorem docArgs_ok (pn pt : Bytes) (hne : ∀ a b, pn ++ Text.dec a ≠ pt ++ Text.dec b) (names : Option (List (Option Bytes))) (types : Option (List Nat))
    (N : Nat) (hc : Complete names types N) : ∀ n i, i + n = N → ∃ ms, docArgs pn pt names types n i = some ms ∧ (ms.map (·.1)).Nodup ∧
      ∀ a v, (a, v) ∈ ms ↔ ∃ j s t, i < j ∧ HasArg names types N j s t ∧
        ((a = pn ++ Text.dec j ∧ v = [.str s]) ∨ (a = pt ++ Text.dec j ∧ v = [.str (kindsText t)])) := by
  intro n
  induction n with
  | zero =>
    intro i hi
    refine ⟨[], rfl, by simp, fun a v => ⟨by simp, ?_⟩⟩
    rintro ⟨j, s, t, h1, h2, _⟩
    have := h2.2.1
    omega
  | succ n ih =>
    intro i hi
    obtain ⟨ms, e, nd, hm⟩ := ih (i + 1) (by omega)
    have skip : (∀ s t, ¬ HasArg names types N (i + 1) s t) → ∀ a v, (a, v) ∈ ms ↔ ∃ j s t, i < j ∧ HasArg names types N j s t ∧
        ((a = pn ++ Text.dec j ∧ v = [.str s]) ∨ (a = pt ++ Text.dec j ∧ v = [.str (kindsText t)])) := by
      intro hno a v
      rw [hm]
      constructor
      · rintro ⟨j, s, t, h1, h2⟩; exact ⟨j, s, t, by omega, h2⟩
      · rintro ⟨j, s, t, h1, h2, h3⟩
        refine ⟨j, s, t, ?_, h2, h3⟩
        rcases Nat.lt_or_ge (i + 1) j with h | h
        · exact h
        · have : j = i + 1 := by omega
          subst this; exact absurd h2 (hno s t)
    cases names with
    | none =>
      refine ⟨ms, by simp only [docArgs]; exact e, nd, skip ?_⟩
      rintro s t ⟨_, _, ns, _, h, _⟩; simp at h
    | some ns =>
      obtain ⟨hl, hx⟩ := hc ns rfl
      have hlt : i < ns.length := by omega
      cases hs : ns[i]? with
      | none => rw [List.getElem?_eq_none_iff] at hs; omega
      | some o =>
        cases o with
        | none =>
          refine ⟨ms, by simp only [docArgs, hs]; exact e, nd, skip ?_⟩
          rintro s t ⟨_, _, ns', _, h, _, h2, _⟩
          simp only [Option.some.injEq] at h; subst h
          simp [hs] at h2
        | some s =>
          obtain ⟨ts, t, rfl, ht, t1, t2⟩ := hx i s (by omega) hs
          refine ⟨(pn ++ Text.dec (i + 1), [.str s]) :: (pt ++ Text.dec (i + 1), [.str (kindsText t)]) :: ms, ?_, ?_, ?_⟩
          · simp only [docArgs, hs, Option.bind_some, ht, (typesText_eq t).trans (if_pos ⟨t1, t2⟩), e, Option.map_some]
          · have out : ∀ a v, (a, v) ∈ ms → a ≠ pn ++ Text.dec (i + 1) ∧ a ≠ pt ++ Text.dec (i + 1) := by
              intro a v m
              obtain ⟨j, s, t, h1, _, h | h⟩ := (hm a v).mp m
              · refine ⟨fun e => ?_, fun e => hne _ _ (h.1 ▸ e)⟩
                have := dec_inj (List.append_cancel_left (h.1 ▸ e)); omega
              · refine ⟨fun e => hne _ _ (h.1 ▸ e).symm, fun e => ?_⟩
                have := dec_inj (List.append_cancel_left (h.1 ▸ e)); omega
            simp only [List.map_cons, List.nodup_cons, List.mem_cons, not_or]
            refine ⟨⟨hne _ _, fun m => ?_⟩, fun m => ?_, nd⟩
            · obtain ⟨⟨a, v⟩, m, rfl⟩ := List.mem_map.mp m
              exact (out _ _ m).1 rfl
            · obtain ⟨⟨a, v⟩, m, rfl⟩ := List.mem_map.mp m
              exact (out _ _ m).2 rfl
          · have here : HasArg (some ns) (some ts) N (i + 1) s t := ⟨by omega, by omega, ns, ts, rfl, rfl, hs, ht⟩
            intro a v
            simp only [List.mem_cons, Prod.mk.injEq, hm]
            constructor
            · rintro (h | h | ⟨j, s, t, h1, h2⟩)
              · exact ⟨i + 1, s, t, by omega, here, .inl h⟩
              · exact ⟨i + 1, s, t, by omega, here, .inr h⟩
              · exact ⟨j, s, t, by omega, h2⟩
            · rintro ⟨j, s', t', h1, h2, h3⟩
              rcases Nat.lt_or_ge (i + 1) j with h | h
              · exact .inr (.inr ⟨j, s', t', h, h2, h3⟩)
              · have : j = i + 1 := by omega
                subst this
                obtain ⟨_, _, ns', ts', e1, e2, e3, e4⟩ := h2
                simp only [Option.some.injEq] at e1 e2
                subst e1 e2
                simp only [Nat.add_sub_cancel, hs, ht, Option.some.injEq] at e3 e4
                subst e3 e4
                rcases h3 with h | h
                · exact .inl h
                · exact .inr (.inl h)

theorem Key.addr_inj {k l : Key} (h : k.addr = l.addr) : k = l := by
  cases k <;> cases l <;> simp [Key.addr] at h ⊢ <;> exact dec_inj h

end Libo.Props.EDocP

namespace Libo.Props
open Libo Libo.EDoc EDocP

/-- The text of types, for all of them: the names of the kinds with commas in between, if there is a kind and at most 60 bytes. -/
theorem C105_types (t : Nat) : typesText t =
    if (∃ k ∈ kinds, t.testBit k.1 = true) ∧ (kindsText t).length ≤ 60 then some (kindsText t) else none := typesText_eq t

/-- So it is right for all types of the first seven kinds. -/
theorem C105_types_partial (t : Nat) (h : t % 128 ≠ 0) (h7 : t.testBit 7 = false) : typesText t = some (kindsText t) := typesText_ok t h h7

/-- Types that have all kinds do not fit, as functions were forgotten in the size of the buffer; no types, or times only, leave the
buffer unwritten. -/
theorem C105_types_full_fails (t : Nat) (h : t % 256 = 255 ∨ t % 256 = 0) : typesText t = none := by
  have e : ∀ k, k < 8 → t.testBit k = (t % 256).testBit k := by
    intro k hk
    rw [show (256 : Nat) = 2 ^ 8 from rfl, Nat.testBit_mod_two_pow]; simp [hk]
  rw [typesText_spec, if_neg]
  simp only [kindsText, kinds, List.filter_cons, List.filter_nil, List.any_cons, List.any_nil, e 0 (by omega), e 1 (by omega), e 2 (by omega),
    e 3 (by omega), e 4 (by omega), e 5 (by omega), e 6 (by omega), e 7 (by omega)]
  rcases h with h | h <;> rw [h] <;> decide +kernel

/-- The documentation of a function has exactly one message for everything that can be said about it, and no other. -/
theorem C105_doc (r : DRec) (hr : Complete r.req r.reqTypes r.nreq.toNat) (ho : Complete r.opt r.optTypes r.nopt.natAbs) :
    ∃ ms, formatDoc r = some ms ∧ (ms.map (·.1)).Nodup ∧ ∀ a v, (a, v) ∈ ms ↔ ∃ k : Key, a = k.addr ∧ Says r k v := by
  obtain ⟨ra, e1, n1, m1⟩ := docArgs_ok pReqName pReqTypes (by simp [pReqName, pReqTypes]) r.req r.reqTypes _ hr _ 0
    (Nat.zero_add _)
  obtain ⟨oa, e2, n2, m2⟩ := docArgs_ok pOptName pOptTypes (by simp [pOptName, pOptTypes]) r.opt r.optTypes _ ho _ 0
    (Nat.zero_add _)
  have k1 : ∀ a ∈ ra.map (·.1), ∃ j, a = (Key.requiredName j).addr ∨ a = (Key.requiredTypes j).addr := by
    intro a m
    obtain ⟨⟨a, v⟩, m', rfl⟩ := List.mem_map.mp m
    obtain ⟨j, s, t, _, _, h | h⟩ := (m1 a v).mp m'
    · exact ⟨j, .inl h.1⟩
    · exact ⟨j, .inr h.1⟩
  have k2 : ∀ a ∈ oa.map (·.1), ∃ j, a = (Key.optionalName j).addr ∨ a = (Key.optionalTypes j).addr := by
    intro a m
    obtain ⟨⟨a, v⟩, m', rfl⟩ := List.mem_map.mp m
    obtain ⟨j, s, t, _, _, h | h⟩ := (m2 a v).mp m'
    · exact ⟨j, .inl h.1⟩
    · exact ⟨j, .inr h.1⟩
  refine ⟨_, by rw [formatDoc, e1, Option.bind_some, e2, Option.map_some], ?_, ?_⟩
  · simp only [List.map_append, List.map_cons, List.map_nil]
    refine List.nodup_append.mpr ⟨List.nodup_append.mpr ⟨List.nodup_append.mpr ⟨by decide, n1, ?_⟩, n2, ?_⟩, by simp, ?_⟩
    · intro a ha b hb
      obtain ⟨j, h⟩ := k1 b hb
      simp only [List.mem_cons, List.not_mem_nil, or_false] at ha
      rcases ha with rfl | rfl | rfl | rfl | rfl <;> rcases h with rfl | rfl <;> simp [Key.addr]
    · intro a ha b hb
      obtain ⟨j, h⟩ := k2 b hb
      rcases List.mem_append.mp ha with ha | ha
      · simp only [List.mem_cons, List.not_mem_nil, or_false] at ha
        rcases ha with rfl | rfl | rfl | rfl | rfl <;> rcases h with rfl | rfl <;> simp [Key.addr]
      · obtain ⟨i, h'⟩ := k1 a ha
        rcases h' with rfl | rfl <;> rcases h with rfl | rfl <;> simp [Key.addr]
    · intro a ha b hb
      simp only [List.mem_singleton] at hb
      subst hb
      rcases List.mem_append.mp ha with ha | ha
      · rcases List.mem_append.mp ha with ha | ha
        · simp only [List.mem_cons, List.not_mem_nil, or_false] at ha
          rcases ha with rfl | rfl | rfl | rfl | rfl <;> simp
        · obtain ⟨i, h'⟩ := k1 a ha
          rcases h' with rfl | rfl <;> simp [Key.addr]
      · obtain ⟨i, h'⟩ := k2 a ha
        rcases h' with rfl | rfl <;> simp [Key.addr]
  · intro a v
    simp only [List.mem_append, List.mem_cons, List.not_mem_nil, or_false, Prod.mk.injEq, m1, m2]
    constructor
    · rintro ((((h | h | h | h | h) | ⟨j, s, t, _, h, h' | h'⟩) | ⟨j, s, t, _, h, h' | h'⟩) | h)
      · exact ⟨.name, h⟩
      · exact ⟨.signature, h⟩
      · exact ⟨.docstring, h⟩
      · exact ⟨.numRequired, h⟩
      · exact ⟨.numOptional, h⟩
      · exact ⟨.requiredName j, h'.1, s, t, h, h'.2⟩
      · exact ⟨.requiredTypes j, h'.1, s, t, h, h'.2⟩
      · exact ⟨.optionalName j, h'.1, s, t, h, h'.2⟩
      · exact ⟨.optionalTypes j, h'.1, s, t, h, h'.2⟩
      · exact ⟨.categories, h⟩
    · rintro ⟨k, h, hs⟩
      cases k with
      | name => exact .inl (.inl (.inl (.inl ⟨h, hs⟩)))
      | signature => exact .inl (.inl (.inl (.inr (.inl ⟨h, hs⟩))))
      | docstring => exact .inl (.inl (.inl (.inr (.inr (.inl ⟨h, hs⟩)))))
      | numRequired => exact .inl (.inl (.inl (.inr (.inr (.inr (.inl ⟨h, hs⟩))))))
      | numOptional => exact .inl (.inl (.inl (.inr (.inr (.inr (.inr ⟨h, hs⟩))))))
      | categories => exact .inr ⟨h, hs⟩
      | requiredName j => obtain ⟨s, t, h1, h2⟩ := hs; exact .inl (.inl (.inr ⟨j, s, t, h1.1, h1, .inl ⟨h, h2⟩⟩))
      | requiredTypes j => obtain ⟨s, t, h1, h2⟩ := hs; exact .inl (.inl (.inr ⟨j, s, t, h1.1, h1, .inr ⟨h, h2⟩⟩))
      | optionalName j => obtain ⟨s, t, h1, h2⟩ := hs; exact .inl (.inr ⟨j, s, t, h1.1, h1, .inl ⟨h, h2⟩⟩)
      | optionalTypes j => obtain ⟨s, t, h1, h2⟩ := hs; exact .inl (.inr ⟨j, s, t, h1.1, h1, .inr ⟨h, h2⟩⟩)

/-- Different questions have different addresses. -/
theorem C105_addresses {k l : Key} (h : k.addr = l.addr) : k = l := Key.addr_inj h

/-- The address for a category: with the common beginning exactly once in front, if it fits into the buffer. -/
theorem C105_category_partial (cat : Bytes) (h : cat.length ≤ 114) :
    ∃ a, categoryAddr cat = some a ∧ n! "/doc/category" <+: a ∧ ((n! "/doc/category" <+: cat ∧ a = cat) ∨ (¬ n! "/doc/category" <+: cat ∧ a = n! "/doc/category" ++ cat)) := by
  by_cases hp : (n! "/doc/category").isPrefixOf cat
  · refine ⟨cat, ?_, List.isPrefixOf_iff_prefix.mp hp, .inl ⟨List.isPrefixOf_iff_prefix.mp hp, rfl⟩⟩
    simp only [categoryAddr, hp, if_true]
    rw [if_pos (by omega)]
  · refine ⟨n! "/doc/category" ++ cat, ?_, List.prefix_append _ _, .inr ⟨fun h => hp (List.isPrefixOf_iff_prefix.mpr h), rfl⟩⟩
    simp only [categoryAddr, hp, if_false, Bool.false_eq_true]
    rw [if_pos (by simp; omega)]

/-- A longer category without the common beginning overflows the buffer. -/
theorem C105_category_full_fails (cat : Bytes) (h : 115 ≤ cat.length) (hp : ¬ n! "/doc/category" <+: cat) : categoryAddr cat = none := by
  have hp' : ¬ (n! "/doc/category").isPrefixOf cat := fun h => hp (List.isPrefixOf_iff_prefix.mp h)
  simp only [categoryAddr, hp', if_false, Bool.false_eq_true]
  rw [if_neg (by simp; omega)]

/-! ## Concrete cases -/

/-- A function of a number or list and, if wanted, an address. -/
def docDemo : DRec := ⟨n! "f", n! "f(x, y)", n! "doc", 1, 1, some [some (n! "x")], some [3], some [some (n! "y")], some [32], [n! "/math"]⟩

example : Complete docDemo.req docDemo.reqTypes docDemo.nreq.toNat ∧ Complete docDemo.opt docDemo.optTypes docDemo.nopt.natAbs := by
  constructor
  · intro ns h
    simp only [docDemo, Option.some.injEq] at h; subst h
    refine ⟨by decide, fun i s hi hs => ?_⟩
    have : i = 0 := by simp [docDemo] at hi; omega
    subst this
    exact ⟨[3], 3, rfl, rfl, by decide, by decide +kernel⟩
  · intro ns h
    simp only [docDemo, Option.some.injEq] at h; subst h
    refine ⟨by decide, fun i s hi hs => ?_⟩
    have : i = 0 := by simp [docDemo] at hi; omega
    subst this
    exact ⟨[32], 32, rfl, rfl, by decide, by decide +kernel⟩

example : typesText 3 = some (n! "number, list") ∧ typesText 256 = none ∧ typesText 128 = some (n! "function") := by decide +kernel

example : (formatDoc docDemo).map (·.map (·.1.length)) = some [18, 23, 23, 31, 31, 33, 34, 33, 34, 24] := by decide +kernel

end Libo.Props
