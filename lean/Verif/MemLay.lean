import Verif.Mem
import Verif.DLL
import Verif.Values
/-!
# What a piece of memory holds

A layout is the tree of blocks an atom, a message or a bundle consists of, with their addresses.  `LayW`, `LayArgs` and
`LayMsgs` say that the memory holds it; `foot` lists the addresses.  Independent of the programs of `Mem.lean`.
-/

namespace Libo.Mem
open Libo

mutual
/-- The word of an atom and what it points to: a plain word, a string `s` (in a buffer with `slack` bytes behind the NUL), a
blob, or a bundle (`tail` is its `msgtail`). -/
inductive LW where
  | plain (w : Word)
  | str (p : Nat) (s slack : Bytes)
  | blob (p : Nat) (b : Bytes)
  | bndl (p : Nat) (tail : Ptr) (ms : List LMsg)
/-- An atom at `p`. -/
inductive LAtom where
  | mk (p : Nat) (tag : UInt8) (alloc : Bool) (w : LW)
/-- A message at `p`; the address is a string in a buffer with slack, or NULL. -/
inductive LMsg where
  | mk (p : Nat) (addr : Option (Nat × Bytes × Bytes)) (args : List LAtom)
end

def LAtom.p : LAtom → Nat | .mk p _ _ _ => p
def LMsg.p : LMsg → Nat | .mk p _ _ => p

def LW.word : LW → Word
  | .plain w => w
  | .str p _ _ => .ptr p
  | .blob p _ => .ptr p
  | .bndl p _ _ => .ptr p

def hdA (q : Ptr) : List LAtom → Ptr | [] => q | a :: _ => some a.p
def ltA (p : Ptr) : List LAtom → Ptr | [] => p | a :: as => ltA (some a.p) as
def hdM (q : Ptr) : List LMsg → Ptr | [] => q | a :: _ => some a.p
def ltM (p : Ptr) : List LMsg → Ptr | [] => p | a :: as => ltM (some a.p) as

/-- `msgtail` is the last message, or NULL if there is at most one. -/
def TailOK (t : Ptr) (ms : List LMsg) : Prop := t = ltM none ms ∨ (ms.length ≤ 1 ∧ t = none)

def LayAddr (m : Memory) : Option (Nat × Bytes × Bytes) → Prop
  | none => True
  | some (p, s, k) => m.cell p = some (.buf (s ++ 0 :: k)) ∧ (0 : UInt8) ∉ s

mutual
/-- The word of an atom with this type tag: only a type that has a pointer points somewhere, and NULL is allowed. -/
def LayW (m : Memory) (t : UInt8) : LW → Prop
  | .plain w => t = 115 ∨ t = 98 ∨ t = 46 → w = .bits 0
  | .str p s k => t = 115 ∧ m.cell p = some (.buf (s ++ 0 :: k)) ∧ (0 : UInt8) ∉ s
  | .blob p b => t = 98 ∧ m.cell p = some (.buf b)
  | .bndl p tail ms => t = 46 ∧ m.cell p = some (.bndl ⟨ms.length, hdM none ms, tail⟩) ∧ TailOK tail ms ∧ LayMsgs m none none ms
/-- Atoms one after the other; `prev` before the first and `q` behind the last. -/
def LayArgs (m : Memory) : Ptr → Ptr → List LAtom → Prop
  | _, _, [] => True
  | prev, q, .mk p t al w :: as =>
    m.cell p = some (.atom ⟨t, al, w.word, hdA q as, prev⟩) ∧ LayW m t w ∧ LayArgs m (some p) q as
/-- Messages one after the other. -/
def LayMsgs (m : Memory) : Ptr → Ptr → List LMsg → Prop
  | _, _, [] => True
  | prev, q, .mk p addr args :: ms =>
    m.cell p = some (.msg ⟨addr.map (·.1), args.length, hdA none args, ltA none args, hdM q ms, prev⟩) ∧ LayAddr m addr ∧
      LayArgs m none none args ∧ LayMsgs m (some p) q ms
end

def footAddr : Option (Nat × Bytes × Bytes) → List Nat
  | none => []
  | some (p, _, _) => [p]

mutual
/-- The addresses of all blocks. -/
def LW.foot : LW → List Nat
  | .plain _ => []
  | .str p _ _ => [p]
  | .blob p _ => [p]
  | .bndl p _ ms => p :: footMs ms
def footAs : List LAtom → List Nat
  | [] => []
  | .mk p _ _ w :: as => p :: (w.foot ++ footAs as)
def footMs : List LMsg → List Nat
  | [] => []
  | .mk p addr args :: ms => p :: (footAddr addr ++ (footAs args ++ footMs ms))
end

mutual
/-- The tree without the addresses (a pointer keeps its number). -/
def LW.toW : LW → W
  | .plain (.bits b) => .bits b
  | .plain (.ptr p) => .bits p
  | .str p s _ => .str p s
  | .blob p b => .blob p b
  | .bndl p _ ms => .bndl p (toMs ms)
def toAs : List LAtom → List UAtom
  | [] => []
  | .mk _ t al w :: as => .mk t al w.toW :: toAs as
def toMs : List LMsg → List UMsg
  | [] => []
  | .mk _ addr args :: ms => .mk (addr.map (·.2.1)) (toAs args) :: toMs ms
end

/-! ### Lemmas -/

theorem footAs_append : ∀ as bs : List LAtom, footAs (as ++ bs) = footAs as ++ footAs bs
  | [], bs => rfl
  | .mk p t al w :: as, bs => by simp [footAs, footAs_append as bs]

theorem footMs_append : ∀ as bs : List LMsg, footMs (as ++ bs) = footMs as ++ footMs bs
  | [], bs => rfl
  | .mk p t al :: as, bs => by simp [footMs, footMs_append as bs]

theorem toAs_append : ∀ as bs : List LAtom, toAs (as ++ bs) = toAs as ++ toAs bs
  | [], bs => rfl
  | .mk p t al w :: as, bs => by simp [toAs, toAs_append as bs]

theorem toMs_append : ∀ as bs : List LMsg, toMs (as ++ bs) = toMs as ++ toMs bs
  | [], bs => rfl
  | .mk p t al :: as, bs => by simp [toMs, toMs_append as bs]

theorem hdA_cons (q : Ptr) (p : Nat) (t : UInt8) (al : Bool) (w : LW) (as : List LAtom) : hdA q (.mk p t al w :: as) = some p := rfl
theorem hdM_cons (q : Ptr) (p : Nat) (a : Option (Nat × Bytes × Bytes)) (x : List LAtom) (as : List LMsg) :
    hdM q (.mk p a x :: as) = some p := rfl
theorem hdA_append (q : Ptr) (as bs : List LAtom) : hdA q (as ++ bs) = hdA (hdA q bs) as := by cases as <;> rfl
theorem hdM_append (q : Ptr) (as bs : List LMsg) : hdM q (as ++ bs) = hdM (hdM q bs) as := by cases as <;> rfl
theorem ltA_append (p : Ptr) (as bs : List LAtom) : ltA p (as ++ bs) = ltA (ltA p as) bs := by
  induction as generalizing p with
  | nil => rfl
  | cons a as ih => simp [ltA, ih]
theorem ltM_append (p : Ptr) (as bs : List LMsg) : ltM p (as ++ bs) = ltM (ltM p as) bs := by
  induction as generalizing p with
  | nil => rfl
  | cons a as ih => simp [ltM, ih]

theorem layArgs_append (m : Memory) : ∀ (prev q : Ptr) (as bs : List LAtom),
    LayArgs m prev q (as ++ bs) ↔ LayArgs m prev (hdA q bs) as ∧ LayArgs m (ltA prev as) q bs
  | prev, q, [], bs => by simp [LayArgs, ltA]
  | prev, q, .mk p t al w :: as, bs => by
    simp only [List.cons_append, LayArgs, layArgs_append m _ q as bs, ltA, LAtom.p, hdA_append, and_assoc]

theorem layMsgs_append (m : Memory) : ∀ (prev q : Ptr) (as bs : List LMsg),
    LayMsgs m prev q (as ++ bs) ↔ LayMsgs m prev (hdM q bs) as ∧ LayMsgs m (ltM prev as) q bs
  | prev, q, [], bs => by simp [LayMsgs, ltM]
  | prev, q, .mk p t al :: as, bs => by
    simp only [List.cons_append, LayMsgs, layMsgs_append m _ q as bs, ltM, LMsg.p, hdM_append, and_assoc]

theorem layAddr_frame {m m' : Memory} {a : Option (Nat × Bytes × Bytes)} (h : ∀ x ∈ footAddr a, m'.cell x = m.cell x)
    (l : LayAddr m a) : LayAddr m' a := by
  match a with
  | none => trivial
  | some (p, s, k) => exact ⟨by rw [h p (by simp [footAddr])]; exact l.1, l.2⟩

mutual
/-- What a memory holds depends only on the blocks of the layout. -/
theorem layW_frame {m m' : Memory} {t : UInt8} : ∀ w : LW, (∀ x ∈ w.foot, m'.cell x = m.cell x) → LayW m t w → LayW m' t w
  | .plain w, _, l => by simpa only [LayW] using l
  | .str p s k, h, l => by
    simp only [LayW] at l ⊢
    rw [h p (by simp [LW.foot])]; exact l
  | .blob p b, h, l => by
    simp only [LayW] at l ⊢
    rw [h p (by simp [LW.foot])]; exact l
  | .bndl p tail ms, h, l => by
    simp only [LayW] at l ⊢
    rw [h p (by simp [LW.foot])]
    exact ⟨l.1, l.2.1, l.2.2.1, layMsgs_frame none none ms (fun x hx => h x (by simp [LW.foot, hx])) l.2.2.2⟩
theorem layArgs_frame {m m' : Memory} : ∀ (prev q : Ptr) (as : List LAtom), (∀ x ∈ footAs as, m'.cell x = m.cell x) →
    LayArgs m prev q as → LayArgs m' prev q as
  | _, _, [], _, _ => by simp [LayArgs]
  | prev, q, .mk p t al w :: as, h, l => by
    simp only [LayArgs] at l ⊢
    rw [h p (by simp [footAs])]
    exact ⟨l.1, layW_frame w (fun x hx => h x (by simp [footAs, hx])) l.2.1,
      layArgs_frame (some p) q as (fun x hx => h x (by simp [footAs, hx])) l.2.2⟩
theorem layMsgs_frame {m m' : Memory} : ∀ (prev q : Ptr) (ms : List LMsg), (∀ x ∈ footMs ms, m'.cell x = m.cell x) →
    LayMsgs m prev q ms → LayMsgs m' prev q ms
  | _, _, [], _, _ => by simp [LayMsgs]
  | prev, q, .mk p addr args :: ms, h, l => by
    simp only [LayMsgs] at l ⊢
    rw [h p (by simp [footMs])]
    exact ⟨l.1, layAddr_frame (fun x hx => h x (by simp [footMs, hx])) l.2.1,
      layArgs_frame none none args (fun x hx => h x (by simp [footMs, hx])) l.2.2.1,
      layMsgs_frame (some p) q ms (fun x hx => h x (by simp [footMs, hx])) l.2.2.2⟩
end

mutual
/-- Every block of a layout is allocated. -/
theorem layW_alloc {m : Memory} {t : UInt8} : ∀ w : LW, LayW m t w → ∀ x ∈ w.foot, (m.cell x).isSome
  | .plain w, _, x, hx => by simp [LW.foot] at hx
  | .str p s k, l, x, hx => by
    simp only [LayW] at l
    simp only [LW.foot, List.mem_singleton] at hx
    subst hx; rw [l.2.1]; rfl
  | .blob p b, l, x, hx => by
    simp only [LayW] at l
    simp only [LW.foot, List.mem_singleton] at hx
    subst hx; rw [l.2]; rfl
  | .bndl p tail ms, l, x, hx => by
    simp only [LayW] at l
    simp only [LW.foot, List.mem_cons] at hx
    rcases hx with rfl | hx
    · rw [l.2.1]; rfl
    · exact layMsgs_alloc none none ms l.2.2.2 x hx
theorem layArgs_alloc {m : Memory} : ∀ (prev q : Ptr) (as : List LAtom), LayArgs m prev q as → ∀ x ∈ footAs as, (m.cell x).isSome
  | _, _, [], _, x, hx => by simp [footAs] at hx
  | prev, q, .mk p t al w :: as, l, x, hx => by
    simp only [LayArgs] at l
    simp only [footAs, List.mem_cons, List.mem_append] at hx
    rcases hx with rfl | hx | hx
    · rw [l.1]; rfl
    · exact layW_alloc w l.2.1 x hx
    · exact layArgs_alloc _ _ as l.2.2 x hx
theorem layMsgs_alloc {m : Memory} : ∀ (prev q : Ptr) (ms : List LMsg), LayMsgs m prev q ms → ∀ x ∈ footMs ms, (m.cell x).isSome
  | _, _, [], _, x, hx => by simp [footMs] at hx
  | prev, q, .mk p addr args :: ms, l, x, hx => by
    simp only [LayMsgs] at l
    simp only [footMs, List.mem_cons, List.mem_append] at hx
    rcases hx with rfl | hx | hx | hx
    · rw [l.1]; rfl
    · match addr, l.2.1, hx with
      | some (p, s, k), l, hx =>
        simp only [footAddr, List.mem_singleton] at hx
        subst hx; rw [l.1]; rfl
    · exact layArgs_alloc _ _ args l.2.2.1 x hx
    · exact layMsgs_alloc _ _ ms l.2.2.2 x hx
end

theorem cstr_buf (s k : Bytes) (h : (0 : UInt8) ∉ s) : cstr (s ++ 0 :: k) 0 = some s := by
  have e : (s ++ 0 :: k).takeWhile (· != 0) = s := by
    rw [List.takeWhile_append_of_pos (by
      intro a ha
      have : a ≠ 0 := by rintro rfl; exact h ha
      simpa using this)]
    simp
  simp only [cstr, cstrlen, List.drop_zero, e]
  rw [if_pos (by simp)]
  simp

mutual
/-- The serialiser sees the tree of the layout. -/
theorem readW_lay {m : Memory} {t : UInt8} : ∀ (w : LW) (f : Nat), LayW m t w → 2 * w.foot.length < f → readW m f t w.word = some w.toW
  | .plain (.bits b), f, l, hf => by
    obtain ⟨f, rfl⟩ : ∃ g, f = g + 1 := ⟨f - 1, by omega⟩
    simp [readW, LW.word, LW.toW]
  | .plain (.ptr p), f, l, hf => by
    obtain ⟨f, rfl⟩ : ∃ g, f = g + 1 := ⟨f - 1, by omega⟩
    simp only [LayW] at l
    have h1 : t ≠ 115 := fun e => by simpa using l (Or.inl e)
    have h2 : t ≠ 98 := fun e => by simpa using l (Or.inr (Or.inl e))
    have h3 : t ≠ 46 := fun e => by simpa using l (Or.inr (Or.inr e))
    simp [readW, LW.word, LW.toW, h1, h2, h3]
  | .str p s k, f, l, hf => by
    obtain ⟨f, rfl⟩ : ∃ g, f = g + 1 := ⟨f - 1, by omega⟩
    simp only [LayW] at l
    simp [readW, LW.word, LW.toW, l.1, l.2.1, cstr_buf s k l.2.2]
  | .blob p b, f, l, hf => by
    obtain ⟨f, rfl⟩ : ∃ g, f = g + 1 := ⟨f - 1, by omega⟩
    simp only [LayW] at l
    simp [readW, LW.word, LW.toW, l.1, l.2]
  | .bndl p tail ms, f, l, hf => by
    obtain ⟨f, rfl⟩ : ∃ g, f = g + 1 := ⟨f - 1, by omega⟩
    simp only [LayW] at l
    simp only [LW.foot, List.length_cons] at hf
    obtain ⟨g, rfl⟩ : ∃ g, f = g + 1 := ⟨f - 1, by omega⟩
    have h := readMsgs_lay none ms g l.2.2.2 (by omega)
    simp [readW, LW.word, LW.toW, l.1, readBndl, l.2.1, h]
theorem readArgs_lay {m : Memory} : ∀ (prev : Ptr) (as : List LAtom) (f : Nat), LayArgs m prev none as → 2 * (footAs as).length < f →
    readArgs m f (hdA none as) = some (toAs as)
  | _, [], f, _, _ => by cases f <;> simp [hdA, readArgs, toAs]
  | prev, .mk p t al w :: as, f, l, hf => by
    simp only [LayArgs] at l
    simp only [footAs, List.length_cons, List.length_append] at hf
    obtain ⟨f, rfl⟩ : ∃ g, f = g + 1 := ⟨f - 1, by omega⟩
    have h1 := readW_lay w f l.2.1 (by omega)
    have h2 := readArgs_lay (some p) as f l.2.2 (by omega)
    simp only [hdA_cons, readArgs, l.1, h1, h2, toAs]
    rfl
theorem readMsgs_lay {m : Memory} : ∀ (prev : Ptr) (ms : List LMsg) (f : Nat), LayMsgs m prev none ms → 2 * (footMs ms).length < f →
    readMsgs m f (hdM none ms) = some (toMs ms)
  | _, [], f, _, _ => by cases f <;> simp [hdM, readMsgs, toMs]
  | prev, .mk p addr args :: ms, f, l, hf => by
    simp only [LayMsgs] at l
    simp only [footMs, List.length_cons, List.length_append] at hf
    obtain ⟨f, rfl⟩ : ∃ g, f = g + 1 := ⟨f - 1, by omega⟩
    have h1 := readArgs_lay none args f l.2.2.1 (by omega)
    have h2 := readMsgs_lay (some p) ms f l.2.2.2 (by omega)
    match addr, l.2.1 with
    | none, _ =>
      simp only [hdM_cons, readMsgs, l.1, h1, h2, toMs]
      rfl
    | some (q, s, k), la =>
      have h3 := cstr_buf s k la.2
      simp only [hdM_cons, readMsgs, l.1, h1, h2, toMs, Option.map_some, la.1, h3]
      rfl
end

end Libo.Mem
