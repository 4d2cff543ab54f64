import Verif.DecodeVal
import Verif.Props.BundleS
/-!
# Properties C01 (round trip), C02 (serialised size) and C03 (output is accepted)
-/

namespace Libo.Props
open Libo

/-- What serialising a bundle gives: the header followed by the wire form of its messages. -/
theorem serialize_enc (ms : List UMsg) (vs : List VMsg) (hv : msgsVal ms = some vs) (hs : 16 + sizeVMsgs vs < 4294967296) :
    ∃ b, EncMsgs vs b ∧ sizeBundle ms = some (16 + sizeVMsgs vs) ∧ b.length = sizeVMsgs vs ∧
      serialize ms = some (plainHeader ++ b) ∧ ∀ n, 16 + sizeVMsgs vs ≤ n → serBundle n ms = some (plainHeader ++ b) := by
  obtain ⟨b, hb, hl, hz, hse⟩ := ser_msgs ms vs hv (by omega)
  have hB : ∀ n, 16 + sizeVMsgs vs ≤ n → serBundle n ms = some (plainHeader ++ b) := by
    intro n hn
    rw [serBundle, if_neg (by omega), hse _ _ hn, Option.map_some, plainHeader_eq]
  have hsz : sizeBundle ms = some (16 + sizeVMsgs vs) := by simp [sizeBundle, hz]
  exact ⟨b, hb, hsz, hl, by rw [serialize, hsz, Option.bind_some, hB _ (Nat.le_refl _)], hB⟩

/-- **C01 (round trip; partial).**  Whatever values a bundle holds, with bundles nested in arguments to any depth: if every
message has a slash-led address, addresses and strings contain no NUL and the whole fits the 32 bit size fields, then
serialising succeeds, deserialising the bytes succeeds, and the result holds exactly the same messages in the same order with the
same addresses and typed values.  Missing from the full claim: messages without an address, which get lost
(`C01_full_fails`). -/
theorem C01_roundtrip_partial (ms : List UMsg) (vs : List VMsg) (hv : msgsVal ms = some vs) (hg : GoodMsgs vs)
    (hs : 16 + sizeVMsgs vs < 2147483648) :
    ∃ bytes us, serialize ms = some bytes ∧ deserialize bytes = some us ∧ msgsVal us = some vs := by
  obtain ⟨b, hb, -, hl, hse, -⟩ := serialize_enc ms vs hv (by omega)
  have hh : plainHeader.length = 16 := by decide
  obtain ⟨bodies, e, hok, hdec⟩ := dec_msgs vs b plainHeader [] (plainHeader ++ b).length hb hg
    (by simp only [List.length_append, hh, List.length_nil]; omega) (by simp)
  obtain ⟨views, hit, hvw⟩ := iterate_encB plainHeader bodies hh hok
  have eb : encB plainHeader bodies = plainHeader ++ b := by rw [encB, e]
  rw [eb] at hit hvw
  rw [List.append_nil] at hdec
  obtain ⟨us, hus, huv⟩ := hdec views (by rw [hh]; exact hvw)
  refine ⟨_, us, hse, ?_, huv⟩
  simp only [deserialize, deserBundle, hit, Option.bind_some]
  exact hus

/-- Decoding does not depend on who encoded: any wire form of good messages behind a header of 16 bytes decodes to them. -/
theorem C01_decode (vs : List VMsg) (b : Bytes) (hb : EncMsgs vs b) (hg : GoodMsgs vs) (hdr : Bytes) (hh : hdr.length = 16)
    (hs : (hdr ++ b).length < 2147483648) : ∃ us, deserialize (hdr ++ b) = some us ∧ msgsVal us = some vs := by
  obtain ⟨bodies, e, hok, hdec⟩ := dec_msgs vs b hdr [] (hdr ++ b).length hb hg (by rw [List.append_nil]; exact hs)
    (by simp)
  obtain ⟨views, hit, hvw⟩ := iterate_encB hdr bodies hh hok
  have eb : encB hdr bodies = hdr ++ b := by rw [encB, e]
  rw [eb] at hit hvw
  rw [List.append_nil] at hdec
  obtain ⟨us, hus, huv⟩ := hdec views (by rw [hh]; exact hvw)
  refine ⟨us, ?_, huv⟩
  simp only [deserialize, deserBundle, hit, Option.bind_some]
  exact hus

/-- **C01 (the full claim is false).**  A message that was never given an address (or one that does not start with a slash,
which the setter refuses) is lost in serialisation together with its arguments. -/
theorem C01_full_fails : ∃ ms : List UMsg, msgsVal ms = some [.mk none [.num 105 7]] ∧
    ∃ bytes, serialize ms = some bytes ∧ deserialize bytes = some [] :=
  ⟨[.mk none [.mk 105 false (.bits 7)]], rfl, emptyHeader, by decide +kernel, rfl⟩

/-! ## C02 -/

mutual
theorem sizeVal_mod4 : ∀ v, sizeVal v % 4 = 0
  | .num t v => by simp only [sizeVal]; split <;> rfl
  | .time _ _ => by simp [sizeVal]
  | .bare _ => by simp [sizeVal]
  | .str s => by simp only [sizeVal, strSize]; omega
  | .blob c => by simp only [sizeVal]; omega
  | .bndl ms => by simp only [sizeVal]; have := sizeVMsgs_mod4 ms; omega
theorem sizeVals_mod4 : ∀ vs, sizeVals vs % 4 = 0
  | [] => by simp [sizeVals]
  | v :: vs => by simp only [sizeVals]; have := sizeVal_mod4 v; have := sizeVals_mod4 vs; omega
theorem sizeVMsg_mod4 : ∀ m, sizeVMsg m % 4 = 0
  | .mk none _ => by simp [sizeVMsg]
  | .mk (some a) vs => by simp only [sizeVMsg, strSize]; have := sizeVals_mod4 vs; omega
theorem sizeVMsgs_mod4 : ∀ ms, sizeVMsgs ms % 4 = 0
  | [] => by simp [sizeVMsgs]
  | m :: ms => by simp only [sizeVMsgs]; have := sizeVMsg_mod4 m; have := sizeVMsgs_mod4 ms; omega
end

/-- **C02 (atoms).**  The size call reports `n`, `n` is a multiple of four, and writing into a buffer of at least `n` bytes
writes exactly `n` bytes, the wire form of the value. -/
theorem C02_atom (a : UAtom) (v : Val) (hv : a.val = some v) (hs : sizeVal v < 4294967296) :
    ∃ n d, sizeAtom a = some n ∧ n % 4 = 0 ∧ d.length = n ∧ (∀ k, n ≤ k → serAtom k a = some d) ∧
      serializeAtom a = some (a.tag, d) ∧ EncVal v a.tag d := by
  obtain ⟨d, hd, hl, hz, hse⟩ := ser_atom a v hv hs
  refine ⟨sizeVal v, d, hz, sizeVal_mod4 v, hl, hse, ?_, hd⟩
  have := hse _ (Nat.le_refl _)
  simp only at this
  rw [serializeAtom, hz, Option.bind_some, this]
  rfl

/-- **C02 (messages).**  The same for messages; what is written is a size field that is the length of the body, and the body
(nothing for a message without address). -/
theorem C02_msg (m : UMsg) (v : VMsg) (hv : msgVal m = some v) (hs : sizeVMsg v < 4294967296) :
    ∃ n d, sizeMsg m = some n ∧ n % 4 = 0 ∧ d.length = n ∧ (∀ k, n ≤ k → serMsg k m = some d) ∧
      serializeMsg m = some d ∧ EncMsg v d ∧ (m.addr = none ∧ d = [] ∨ ∃ body, d = be32 body.length ++ body) := by
  obtain ⟨d, hd, hl, hz, hse⟩ := ser_msg m v hv hs
  refine ⟨sizeVMsg v, d, hz, sizeVMsg_mod4 v, hl, hse, ?_, hd, ?_⟩
  · have := hse _ (Nat.le_refl _)
    simp only at this
    rw [serializeMsg, hz, Option.bind_some, this]
  · obtain ⟨a, args⟩ := m
    simp only [msgVal, Option.map_eq_some_iff] at hv
    obtain ⟨vs, -, rfl⟩ := hv
    cases a with
    | none => exact Or.inl ⟨rfl, by simpa [EncMsg] using hd⟩
    | some a =>
      simp only [EncMsg] at hd
      obtain ⟨ws, -, rfl⟩ := hd
      exact Or.inr ⟨_, rfl⟩

/-- The messages of a wire form, each behind its size field. -/
theorem encMsgs_bodies : ∀ (vs : List VMsg) (b : Bytes), EncMsgs vs b → ∃ bodies, b = encMsgs bodies ∧
    bodies.length ≤ vs.length
  | [], b, h => by simp only [EncMsgs] at h; subst h; exact ⟨[], rfl, by simp⟩
  | .mk none args :: vs, b, h => by
    simp only [EncMsgs, EncMsg] at h
    obtain ⟨d, b', rfl, rfl, h2⟩ := h
    obtain ⟨bodies, rfl, hl⟩ := encMsgs_bodies vs b' h2
    exact ⟨bodies, by simp, by simp; omega⟩
  | .mk (some a) args :: vs, b, h => by
    simp only [EncMsgs, EncMsg] at h
    obtain ⟨d, b', rfl, ⟨ws, -, rfl⟩, h2⟩ := h
    obtain ⟨bodies, rfl, hl⟩ := encMsgs_bodies vs b' h2
    exact ⟨encBody a ws :: bodies, by simp [encMsgs], by simp; omega⟩

/-- **C02 (bundles).**  The size call reports `n`, a multiple of four; writing into a buffer of at least `n` bytes writes
exactly `n` bytes: the header and then every message preceded by a size field that is the length of its body. -/
theorem C02_bundle (ms : List UMsg) (vs : List VMsg) (hv : msgsVal ms = some vs) (hs : 16 + sizeVMsgs vs < 4294967296) :
    ∃ n d bodies, sizeBundle ms = some n ∧ n % 4 = 0 ∧ d.length = n ∧ (∀ k, n ≤ k → serBundle k ms = some d) ∧
      serialize ms = some d ∧ d = plainHeader ++ encMsgs bodies := by
  obtain ⟨b, hb, hz, hl, hse, hB⟩ := serialize_enc ms vs hv hs
  obtain ⟨bodies, e, -⟩ := encMsgs_bodies vs b hb
  have hh : plainHeader.length = 16 := by decide
  refine ⟨_, _, bodies, hz, ?_, ?_, hB, hse, by rw [e]⟩
  · have := sizeVMsgs_mod4 vs; omega
  · simp only [List.length_append, hh, hl]

/-- Why the size has to fit 32 bits: a string of 2^32 - 4 bytes is reported to need no room at all. -/
theorem C02_limit (s : Bytes) (h : s.length = 4294967292) : sizeAtom (.mk 115 false (.str 4096 s)) = some 0 := by
  have : padN s.length = 0 := by rw [h]; decide
  simp [sizeAtom, this]

/-! ## C03 -/

/-- Every address that was given starts with a slash. -/
def SlashLed (vs : List VMsg) : Prop := ∀ a args, VMsg.mk (some a) args ∈ vs → a.head? = some 47

theorem bodies_slash : ∀ (vs : List VMsg) (b : Bytes), EncMsgs vs b → SlashLed vs → b.length < 2147483648 → ∃ bodies, b = encMsgs bodies ∧
    ∀ m ∈ bodies, 4 ≤ m.length ∧ m.head? = some 47
  | [], b, h, _, _ => by simp only [EncMsgs] at h; subst h; exact ⟨[], rfl, by simp⟩
  | .mk none args :: vs, b, h, hs, hl => by
    simp only [EncMsgs, EncMsg] at h
    obtain ⟨d, b', rfl, rfl, h2⟩ := h
    obtain ⟨bodies, rfl, hok⟩ := bodies_slash vs b' h2 (fun a as hm => hs a as (List.mem_cons_of_mem _ hm))
      (by simp only [List.length_append] at hl; omega)
    exact ⟨bodies, by simp, hok⟩
  | .mk (some a) args :: vs, b, h, hs, hl => by
    simp only [EncMsgs, EncMsg] at h
    obtain ⟨d, b', rfl, ⟨ws, -, rfl⟩, h2⟩ := h
    obtain ⟨bodies, rfl, hok⟩ := bodies_slash vs b' h2 (fun a as hm => hs a as (List.mem_cons_of_mem _ hm))
      (by simp only [List.length_append] at hl; omega)
    refine ⟨encBody a ws :: bodies, by simp [encMsgs], fun m hm => ?_⟩
    rcases List.mem_cons.mp hm with rfl | hm
    · have ha := hs a args (by simp)
      cases a with
      | nil => simp at ha
      | cons c a =>
        refine ⟨?_, by simpa [encBody, padStr] using ha⟩
        have ht : (tagString ws).length + 4 < 4294967296 := by
          simp only [encMsg, encBody, padStr, List.length_append] at hl
          omega
        have h1 := length_padStr (tagString ws) ht
        have h2 := padN_eq _ ht
        simp only [encBody, List.length_append]
        omega
    · exact hok m hm

/-- **C03.**  The bytes a bundle serialises to pass the library's sanity check, whatever the bundle holds, if its message
addresses start with a slash and it is smaller than 2^31 bytes. -/
theorem C03_accepted (ms : List UMsg) (vs : List VMsg) (hv : msgsVal ms = some vs) (hsl : SlashLed vs)
    (hs : 16 + sizeVMsgs vs < 2147483648) :
    ∃ d, serialize ms = some d ∧ sanityCheck d.length (some d) = some 0 := by
  obtain ⟨b, hb, -, hl, hse, -⟩ := serialize_enc ms vs hv (by omega)
  obtain ⟨bodies, rfl, hok⟩ := bodies_slash vs b hb hsl (by omega)
  exact ⟨_, hse, (C05_count (zeros 8) bodies (by decide) hok (by
    have hh : (ident ++ zeros 8).length = 16 := by decide
    simp only [encB, List.length_append, hh, hl] at *; omega)).1⟩

/-! Concrete case: two messages, the second with a string, a blob and a nested bundle with an 8 bit number. -/

def exNested : List UMsg := [.mk (some [47, 120]) [.mk 99 false (.bits 200)]]
def exBundle : List UMsg :=
  [.mk (some [47, 97]) [.mk 105 false (.bits 7), .mk 84 false (.bits 0)],
   .mk (some [47, 98]) [.mk 115 true (.str 4096 [104, 105]), .mk 98 false (.blob 4096 [0, 0, 0, 1, 9, 0, 0, 0]),
     .mk 46 false (.bndl 4096 exNested)]]
def exVals : List VMsg :=
  [.mk (some [47, 97]) [.num 105 7, .bare 84],
   .mk (some [47, 98]) [.str [104, 105], .blob [9], .bndl [.mk (some [47, 120]) [.num 99 200]]]]

theorem exBundle_val : msgsVal exBundle = some exVals := rfl
theorem exVals_good : GoodMsgs exVals := by simp [exVals, GoodMsgs, GoodMsg, GoodVals, GoodVal]
example : 16 + sizeVMsgs exVals = 96 ∧ sizeBundle exBundle = some 96 ∧ SlashLed exVals :=
  ⟨by decide +kernel, by decide +kernel, by intro a as h; simp [exVals] at h; rcases h with ⟨rfl, -⟩ | ⟨rfl, -⟩ <;> rfl⟩
example : serialize exBundle = some (
    [35, 98, 117, 110, 100, 108, 101, 0, 0, 0, 0, 0, 0, 0, 0, 0,
     0, 0, 0, 12, 47, 97, 0, 0, 44, 105, 84, 0, 0, 0, 0, 7,
     0, 0, 0, 60, 47, 98, 0, 0, 44, 115, 98, 46, 0, 0, 0, 0, 104, 105, 0, 0, 0, 0, 0, 1, 9, 0, 0, 0,
     0, 0, 0, 32, 35, 98, 117, 110, 100, 108, 101, 0, 0, 0, 0, 0, 0, 0, 0, 0,
     0, 0, 0, 12, 47, 120, 0, 0, 44, 99, 0, 0, 0, 0, 0, 200]) := by decide +kernel

end Libo.Props
