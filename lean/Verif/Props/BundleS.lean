import Verif.BundleSOps
/-!
# Properties C04, C05, C15-C19: serialised bundles

A serialised bundle with header `hdr` and message bodies `ms` is `encB hdr ms` (`BundleSpec.lean`).
-/

namespace Libo.Props
open Libo Libo.Match

/-! Example data: three messages `/foo ,i 1`, `/bar ,` and `/foo ,s "hi"`. -/
def exHdr : Bytes := ident ++ zeros 8
def exFoo : Bytes := b "/foo" ++ [0, 0, 0, 0] ++ b ",i" ++ [0, 0] ++ [0, 0, 0, 1]
def exBar : Bytes := b "/bar" ++ [0, 0, 0, 0] ++ b "," ++ [0, 0, 0]
def exFoo2 : Bytes := b "/foo" ++ [0, 0, 0, 0] ++ b ",s" ++ [0, 0] ++ b "hi" ++ [0, 0]
def exMsgs : List Bytes := [exFoo, exBar, exFoo2]

theorem exHdr_len : exHdr.length = 16 := by decide +kernel
theorem exMsgs_fits : ∀ m ∈ exMsgs, Fits m := by unfold Fits; decide +kernel
theorem exFoo_wf : WFMsg exFoo :=
  ⟨b "/foo", b ",i" ++ [0, 0] ++ [0, 0, 0, 1], by decide +kernel, by decide +kernel, by decide +kernel, by decide +kernel⟩
theorem exBar_wf : WFMsg exBar :=
  ⟨b "/bar", b "," ++ [0, 0, 0], by decide +kernel, by decide +kernel, by decide +kernel, by decide +kernel⟩
theorem exFoo2_wf : WFMsg exFoo2 :=
  ⟨b "/foo", b ",s" ++ [0, 0] ++ b "hi" ++ [0, 0], by decide +kernel, by decide +kernel, by decide +kernel, by decide +kernel⟩
theorem exMsgs_wf : ∀ m ∈ exMsgs, WFMsg m := by
  intro m hm
  simp only [exMsgs, List.mem_cons, List.not_mem_nil, or_false] at hm
  rcases hm with rfl | rfl | rfl
  · exact exFoo_wf
  · exact exBar_wf
  · exact exFoo2_wf
theorem exMsgs_ok : ∀ m ∈ exMsgs, Fits m ∧ WFMsg m := fun m h => ⟨exMsgs_fits m h, exMsgs_wf m h⟩
theorem exMsgs_plain : ∀ m ∈ exMsgs, PlainMsg m := by
  have h : ∀ m ∈ exMsgs, Plain (addrOf m) ∧ (addrOf m).head? = some 47 := by unfold Plain; decide +kernel
  exact fun m hm => ⟨exMsgs_fits m hm, exMsgs_wf m hm, h m hm⟩

/-! ## C04 -/

/-- **C04, what holds (tiling).**  Whatever the bytes are: if the sanity check accepts a buffer, the buffer is exactly a 16
byte header starting with `#bundle` followed by size-prefixed messages, each at least 4 bytes long and starting with a
slash; nothing is left over. -/
theorem C04_sanity_tiles (buf : Bytes) (h : sanityCheck buf.length (some buf) = some 0) :
    ∃ hdr ms, buf = encB hdr ms ∧ hdr.length = 16 ∧ hdr.take 8 = ident ∧
      ∀ m ∈ ms, Fits m ∧ 4 ≤ m.length ∧ m.head? = some 47 := by
  rw [sanityCheck] at h
  split at h
  · simp at h
  rename_i h16
  simp only [Option.bind_eq_bind, Option.bind_eq_some_iff] at h
  obtain ⟨same, hs, h⟩ := h
  cases same with
  | false => simp at h
  | true =>
    simp only [Bool.not_true, Bool.false_eq_true, if_false] at h
    have hid := strncmpId_ident buf hs
    obtain ⟨ms, hms, hall⟩ := sanityLoop_sound buf _ 16 (by omega) h
    refine ⟨buf.take 16, ms, ?_, ?_, ?_, hall⟩
    · rw [encB, ← hms, List.take_append_drop]
    · rw [List.length_take]; omega
    · rw [List.take_take]; exact hid

/-- **C04, what holds (counting).**  The message count of an accepted buffer terminates, stays inside the buffer and counts
the tiles. -/
theorem C04_count (buf : Bytes) (h : sanityCheck buf.length (some buf) = some 0) :
    ∃ hdr ms, buf = encB hdr ms ∧ getMsgCount buf.length (some buf) = some (0, ms.length) := by
  obtain ⟨hdr, ms, he, hh, _, hall⟩ := C04_sanity_tiles buf h
  refine ⟨hdr, ms, he, ?_⟩
  rw [getMsgCount, h, bnd, if_neg (by simp)]
  subst he
  rw [msgLoop_encB _ (fun _ _ (c : Nat) => some (c + 1, false)) hdr ms _ _ hh (fun m hm => (hall m hm).1) (by simp)
    (fun _ _ _ _ _ _ => rfl), count_foldPos, bnd]
  simp

/-- **C04, what holds (iteration).**  If in addition the messages can be split into address and type tags (`WFMsg`), the
iterator visits exactly the tiles and never leaves the buffer.  Missing with respect to `C04_full`: the sanity check does not
look for the NUL that ends an address or a type tag string, so iteration over an accepted buffer can read outside. -/
theorem C04_iterate_safe_partial (buf : Bytes) (h : sanityCheck buf.length (some buf) = some 0)
    (hwf : ∀ hdr ms, buf = encB hdr ms → hdr.length = 16 → ∀ m ∈ ms, WFMsg m) :
    ∃ hdr ms vs, buf = encB hdr ms ∧ hdr.length = 16 ∧ iterate buf.length buf = some vs ∧
      vs.mapM (View.bytes buf) = some (ms.map encMsg) := by
  obtain ⟨hdr, ms, he, hh, _, hall⟩ := C04_sanity_tiles buf h
  have hw := hwf hdr ms he hh
  obtain ⟨vs, hvs, hV⟩ := iterate_encB hdr ms hh (fun x hx => ⟨(hall x hx).1, hw x hx⟩)
  rw [← hh] at hV
  have := views_bytes (encB hdr ms) ms hdr vs rfl (fun x hx => ⟨(hall x hx).1, hw x hx⟩) hV
  exact ⟨hdr, ms, vs, he, hh, by rw [he]; exact hvs, by rw [he]; exact this.1⟩

/-- The full claim: for arbitrary bytes the check itself is safe, and accepted buffers can be iterated. -/
def C04_full : Prop :=
  ∀ buf : Bytes, sanityCheck buf.length (some buf) ≠ none ∧
    (sanityCheck buf.length (some buf) = some 0 → iterate buf.length buf ≠ none)

/-- The check itself reads past the end of a buffer with 1 to 3 stray bytes after the header. -/
theorem C04_check_overread : sanityCheck 17 (some (exHdr ++ [0])) = none := by decide +kernel

/-- The check computes `cumsize + size` in `int`: a size field near `INT_MAX` overflows. -/
theorem C04_check_overflow : sanityCheck 24 (some (exHdr ++ [127, 255, 255, 255] ++ b "/abc")) = none := by decide +kernel

/-- A message `/abc` of four bytes without terminating NUL at the end of the buffer is accepted, yet iterating runs off the
end of the buffer. -/
theorem C04_accepted_unsafe :
    sanityCheck 24 (some (exHdr ++ [0, 0, 0, 4] ++ b "/abc")) = some 0 ∧
    iterate 24 (exHdr ++ [0, 0, 0, 4] ++ b "/abc") = none := by decide +kernel

theorem C04_full_fails : ¬ C04_full := by
  intro h
  exact (h (exHdr ++ [0])).1 (by decide +kernel)

example : sanityCheck (encB exHdr exMsgs).length (some (encB exHdr exMsgs)) = some 0 := by decide +kernel
example : (iterate (encB exHdr exMsgs).length (encB exHdr exMsgs)).map List.length = some 3 := by decide +kernel

/-! ## C05 -/

/-- **C05.**  Iterating over a bundle made of any list of messages hands out exactly those messages, in order, and stops;
the message count of a bundle with valid messages is their number. -/
theorem C05_iterate (hdr : Bytes) (ms : List Bytes) (hh : hdr.length = 16) (hf : ∀ m ∈ ms, Fits m ∧ WFMsg m) :
    ∃ vs, iterate (encB hdr ms).length (encB hdr ms) = some vs ∧ vs.length = ms.length ∧
      vs.mapM (View.bytes (encB hdr ms)) = some (ms.map encMsg) ∧
      vs.mapM (View.addr (encB hdr ms)) = some (ms.map addrOf) := by
  obtain ⟨vs, hvs, hV⟩ := iterate_encB hdr ms hh hf
  rw [← hh] at hV
  have := views_bytes (encB hdr ms) ms hdr vs rfl hf hV
  refine ⟨vs, hvs, ?_, this.1, this.2⟩
  clear hvs this hf
  generalize encB hdr ms = buf at hV
  generalize hdr.length = pos at hV
  induction ms generalizing vs pos with
  | nil =>
    cases vs with
    | nil => rfl
    | cons v vs => exact absurd hV id
  | cons m ms ih =>
    cases vs with
    | nil => exact absurd hV id
    | cons v vs => rw [List.length_cons, List.length_cons, ih vs _ hV.2]

/-- **C05 / C03 (count and acceptance).**  A bundle of slash-led messages of at least four bytes passes the sanity check and
its count is the number of messages. -/
theorem C05_count (tt : Bytes) (ms : List Bytes) (ht : tt.length = 8)
    (hf : ∀ m ∈ ms, 4 ≤ m.length ∧ m.head? = some 47) (hl : (encB (ident ++ tt) ms).length < 2147483648) :
    sanityCheck (encB (ident ++ tt) ms).length (some (encB (ident ++ tt) ms)) = some 0 ∧
    getMsgCount (encB (ident ++ tt) ms).length (some (encB (ident ++ tt) ms)) = some (0, ms.length) := by
  have hh : (ident ++ tt).length = 16 := by simp [ident, ht]
  have hl16 : 16 ≤ (encB (ident ++ tt) ms).length := by simp only [encB, List.length_append]; rw [← hh]; simp
  have hge := length_encMsgs_ge ms
  have hfit : ∀ m ∈ ms, Fits m := by
    intro m hm
    obtain ⟨a, c, rfl⟩ := List.append_of_mem hm
    unfold Fits
    simp only [encB, encMsgs_append, encMsgs_cons, List.length_append, length_encMsg] at hl
    omega
  have hs : sanityCheck (encB (ident ++ tt) ms).length (some (encB (ident ++ tt) ms)) = some 0 := by
    rw [sanityCheck, if_neg (by omega)]
    have hid : strncmpId (encB (ident ++ tt) ms) ident = some true := by
      rw [encB, List.append_assoc]; exact strncmpId_pre _
    rw [hid, bnd]
    have := sanityLoop_complete ms (ident ++ tt) (encB (ident ++ tt) ms)
      (((encB (ident ++ tt) ms).length : Int).toNat + 2) rfl hl hf
      (by
        have : (encB (ident ++ tt) ms).length = 16 + (encMsgs ms).length := by
          rw [encB, List.length_append, hh]
        omega)
    rw [hh] at this
    exact this
  refine ⟨hs, ?_⟩
  rw [getMsgCount, hs, bnd, if_neg (by simp)]
  rw [msgLoop_encB _ (fun _ _ (c : Nat) => some (c + 1, false)) (ident ++ tt) ms _ _ hh hfit (by simp)
    (fun _ _ _ _ _ _ => rfl), count_foldPos, bnd]
  simp

example : ∃ vs, iterate (encB exHdr exMsgs).length (encB exHdr exMsgs) = some vs ∧ vs.length = exMsgs.length ∧
      vs.mapM (View.bytes (encB exHdr exMsgs)) = some (exMsgs.map encMsg) ∧
      vs.mapM (View.addr (encB exHdr exMsgs)) = some (exMsgs.map addrOf) :=
  C05_iterate exHdr exMsgs exHdr_len exMsgs_ok
example : getMsgCount (encB exHdr exMsgs).length (some (encB exHdr exMsgs)) = some (0, 3) :=
  (C05_count (zeros 8) exMsgs rfl (by decide +kernel) (by decide +kernel)).2

/-! ## C15 -/

/-- **C15.**  Removing an address leaves exactly the messages with other addresses, byte for byte and in order. -/
theorem C15_remove (hdr : Bytes) (ms : List Bytes) (pat : Bytes) (hh : hdr.length = 16)
    (hf : ∀ m ∈ ms, Fits m ∧ HasAddr m) :
    ∃ len buf, removeMessage pat (encB hdr ms).length (encB hdr ms) = some (len, buf) ∧
      buf.take len = encB hdr (ms.filter fun m => addrOf m ≠ pat) ∧ buf.length = (encB hdr ms).length := by
  obtain ⟨tail, h⟩ := removeMessage_encB hdr ms pat hh hf
  refine ⟨_, _, h, by simp, ?_⟩
  simp only [removeMessage, Option.bind_eq_bind, Option.bind_eq_some_iff] at h
  obtain ⟨_, _, h⟩ := h
  split at h
  · simp at h
  simp only [Option.bind_eq_some_iff] at h
  obtain ⟨_, _, s, _, buf', hb, h⟩ := h
  simp only [Option.pure_def, Option.some.injEq, Prod.mk.injEq] at h
  rw [← h.2]
  unfold blit at hb
  split at hb
  · simp at hb
  · simp only [Option.some.injEq] at hb
    rw [← hb]; simp; omega

/-- **C15 (idempotence).**  Removing the address again changes nothing. -/
theorem C15_remove_twice (hdr : Bytes) (ms : List Bytes) (pat : Bytes) (hh : hdr.length = 16)
    (hf : ∀ m ∈ ms, Fits m ∧ HasAddr m) (len : Nat) (buf : Bytes)
    (h : removeMessage pat (encB hdr ms).length (encB hdr ms) = some (len, buf)) :
    ∃ buf2, removeMessage pat len (buf.take len) = some (len, buf2) ∧ buf2.take len = buf.take len := by
  obtain ⟨l1, b1, h1, h2, _⟩ := C15_remove hdr ms pat hh hf
  rw [h] at h1
  simp only [Option.some.injEq, Prod.mk.injEq] at h1
  obtain ⟨rfl, rfl⟩ := h1
  have hlen : len = (encB hdr (ms.filter fun m => addrOf m ≠ pat)).length := by
    obtain ⟨tail, h3⟩ := removeMessage_encB hdr ms pat hh hf
    rw [h] at h3
    simp only [Option.some.injEq, Prod.mk.injEq] at h3
    exact h3.1
  obtain ⟨l2, b2, h4, h5, _⟩ := C15_remove hdr (ms.filter fun m => addrOf m ≠ pat) pat hh
    (fun m hm => hf m (List.mem_filter.mp hm).1)
  have hff : (ms.filter fun m => addrOf m ≠ pat).filter (fun m => addrOf m ≠ pat) = ms.filter fun m => addrOf m ≠ pat := by
    rw [List.filter_filter]; simp
  rw [hff] at h5
  have hl2 : l2 = len := by
    obtain ⟨tail, h3⟩ := removeMessage_encB hdr (ms.filter fun m => addrOf m ≠ pat) pat hh
      (fun m hm => hf m (List.mem_filter.mp hm).1)
    rw [h4] at h3
    simp only [Option.some.injEq, Prod.mk.injEq] at h3
    rw [h3.1, hff, hlen]
  refine ⟨b2, ?_, ?_⟩
  · rw [h2]; rw [← hlen, hl2] at h4; exact h4
  · rw [h2, ← h5, hl2]

example : ∃ len buf, removeMessage (b "/foo") (encB exHdr exMsgs).length (encB exHdr exMsgs) = some (len, buf) ∧
    buf.take len = encB exHdr [exBar] ∧ buf.length = (encB exHdr exMsgs).length := by
  have := C15_remove exHdr exMsgs (b "/foo") exHdr_len (fun m h => ⟨exMsgs_fits m h, (exMsgs_wf m h).hasAddr⟩)
  rwa [show exMsgs.filter (fun m => addrOf m ≠ b "/foo") = [exBar] by decide +kernel] at this

/-! ## C16 -/

theorem i32_small {x : Int} (h : -2147483648 ≤ x ∧ x < 2147483648) : i32 x = some x := if_pos h

/-- **C16 (append).**  Appending adds the message at the end; with no bundle yet, a fresh one is made; with no message,
nothing happens. -/
theorem C16_append (hdr : Bytes) (ms : List Bytes) (m rest : Bytes) (hm : Fits m) :
    appendMessage (encB hdr ms).length (some (encB hdr ms)) (some (encMsg m ++ rest)) =
      some (((encB hdr (ms ++ [m])).length : Int), some (encB hdr (ms ++ [m]))) ∧
    appendMessage 0 none (some (encMsg m ++ rest)) =
      some (((encB (ident ++ zeros 8) [m]).length : Int), some (encB (ident ++ zeros 8) [m])) ∧
    appendMessage (encB hdr ms).length (some (encB hdr ms)) none =
      some (((encB hdr ms).length : Int), some (encB hdr ms)) := by
  have hr : rdI32 (encMsg m ++ rest) 0 = some (m.length : Int) := by
    have := rdI32_at [] m rest hm; simpa using this
  have hs : slice (encMsg m ++ rest) 0 ((m.length : Int) + 4) = some (encMsg m) := by
    have := slice_msg [] m rest; simpa using this
  have hi : i32 ((m.length : Int) + 4) = some ((m.length : Int) + 4) := by
    unfold Fits at hm; exact i32_small (by omega)
  refine ⟨?_, ?_, rfl⟩
  · rw [appendMessage]
    simp only
    rw [hr, bnd, hi, bnd, hs, bnd, if_neg (by omega)]
    have : (encB hdr (ms ++ [m])).length = (encB hdr ms).length + (m.length + 4) := by
      rw [← encB_snoc]; simp
    rw [this, ← encB_snoc]
    simp
  · rw [appendMessage]
    simp only
    rw [hr, bnd, hi, bnd, hs, bnd]
    have : (encB (ident ++ zeros 8) [m]).length = 16 + (m.length + 4) := by
      simp [encB, ident]; omega
    rw [this]
    simp [encB]

/-- **C16 (concat).**  The messages of the first bundle followed by those of the second, under the first header. -/
theorem C16_concat (h1 h2 : Bytes) (ms1 ms2 : List Bytes) (hh2 : h2.length = 16) :
    concat (some (encB h1 ms1)) (some (encB h2 ms2)) = some (encB h1 (ms1 ++ ms2)) := by
  rw [concat]
  have : slice (encB h2 ms2) 16 (((encB h2 ms2).length : Int) - 16) = some (encMsgs ms2) := by
    have := slice_mid h2 (encMsgs ms2) [] (((encB h2 ms2).length : Int) - 16) (by
      simp only [encB, List.length_append, hh2]; omega)
    rw [hh2, List.append_nil] at this
    exact this
  rw [this, bnd]
  simp [encB]

/-- **C16 (replace).**  Replacing the message at its position substitutes that message only, whether the new one is shorter
or longer, and whatever unused space (`spare`) follows the bundle in its block. -/
theorem C16_replace (hdr : Bytes) (pre post : List Bytes) (old new spare rest : Bytes) (ho : Fits old) (hn : Fits new) :
    ∃ blk, replaceMessage (encB hdr (pre ++ old :: post)).length (encB hdr (pre ++ old :: post) ++ spare)
        (encB hdr pre).length (encMsg new ++ rest) =
      some (0, ((encB hdr (pre ++ new :: post)).length : Int), blk) ∧
      blk.take (encB hdr (pre ++ new :: post)).length = encB hdr (pre ++ new :: post) := by
  have e0 : encB hdr (pre ++ old :: post) ++ spare = encB hdr pre ++ encMsg old ++ (encMsgs post ++ spare) := by
    simp [encB]
  have hr1 : rdI32 (encB hdr (pre ++ old :: post) ++ spare) (encB hdr pre).length = some (old.length : Int) := by
    rw [e0]; exact rdI32_at _ _ _ ho
  have hr2 : rdI32 (encMsg new ++ rest) 0 = some (new.length : Int) := by
    have := rdI32_at [] new rest hn; simpa using this
  have hs2 : slice (encMsg new ++ rest) 0 ((new.length : Int) + 4) = some (encMsg new) := by
    have := slice_msg [] new rest; simpa using this
  have hi1 : i32 ((old.length : Int) + 4) = some ((old.length : Int) + 4) := by
    unfold Fits at ho; exact i32_small (by omega)
  have hi2 : i32 ((new.length : Int) + 4) = some ((new.length : Int) + 4) := by
    unfold Fits at hn; exact i32_small (by omega)
  have hlo : (encB hdr (pre ++ old :: post)).length = (encB hdr pre).length + old.length + 4 + (encMsgs post).length := by
    simp [encB]; omega
  have hln : (encB hdr (pre ++ new :: post)).length = (encB hdr pre).length + new.length + 4 + (encMsgs post).length := by
    simp [encB]; omega
  have hs1 : slice (encB hdr (pre ++ old :: post) ++ spare) 0 (((encB hdr pre).length : Nat) : Int) = some (encB hdr pre) := by
    have := slice_mid [] (encB hdr pre) (encMsg old ++ (encMsgs post ++ spare)) _ rfl
    rw [e0, List.append_assoc]
    simpa using this
  have hcopy : encB hdr pre ++ encMsg new ++ encMsgs post = encB hdr (pre ++ new :: post) := by simp [encB]
  have hs3 : (if ((encB hdr (pre ++ old :: post)).length : Int) - (((encB hdr pre).length : Int) + ((old.length : Int) + 4)) > 0
      then slice (encB hdr (pre ++ old :: post) ++ spare)
        (((encB hdr pre).length : Int) + ((old.length : Int) + 4)).toNat
        (((encB hdr (pre ++ old :: post)).length : Int) - (((encB hdr pre).length : Int) + ((old.length : Int) + 4)))
      else some []) = some (encMsgs post) := by
    have hsub : ((encB hdr (pre ++ old :: post)).length : Int) - (((encB hdr pre).length : Int) + ((old.length : Int) + 4))
        = (encMsgs post).length := by omega
    rw [hsub]
    by_cases hp : encMsgs post = []
    · rw [hp]; rfl
    · have := List.length_pos_iff.mpr hp
      rw [if_pos (by omega)]
      have h := slice_mid (encB hdr pre ++ encMsg old) (encMsgs post) spare _ rfl
      rw [e0, ← List.append_assoc,
        show (((encB hdr pre).length : Int) + ((old.length : Int) + 4)).toNat = (encB hdr pre ++ encMsg old).length by
          simp; omega]
      exact h
  rw [replaceMessage, hr1, bnd, hr2, bnd, hi1, bnd, hi2, bnd]
  simp only
  have hnb : ((encB hdr (pre ++ old :: post)).length : Int) - ((old.length : Int) + 4) + ((new.length : Int) + 4)
      = (encB hdr (pre ++ new :: post)).length := by omega
  rw [hnb, if_neg (by omega), hs1, bnd, hs2, bnd, if_neg (by omega), hs3, bnd, hcopy, if_neg (by omega), if_neg (by omega)]
  split
  · exact ⟨_, rfl, by simp⟩
  · rename_i hle
    refine ⟨encB hdr (pre ++ new :: post) ++
        (encB hdr (pre ++ old :: post) ++ spare).drop (encB hdr (pre ++ new :: post)).length, ?_, ?_⟩
    · unfold blit
      rw [if_neg (by omega), bnd]
      simp
    · simp

example : ∃ blk, replaceMessage (encB exHdr exMsgs).length (encB exHdr exMsgs ++ [])
        (encB exHdr [exFoo]).length (encMsg exFoo2 ++ []) =
      some (0, ((encB exHdr [exFoo, exFoo2, exFoo2]).length : Int), blk) ∧
      blk.take (encB exHdr [exFoo, exFoo2, exFoo2]).length = encB exHdr [exFoo, exFoo2, exFoo2] :=
  C16_replace exHdr [exFoo] [exFoo2] exBar exFoo2 [] [] (exMsgs_fits _ (by simp [exMsgs])) (exMsgs_fits _ (by simp [exMsgs]))
example : appendMessage (encB exHdr exMsgs).length (some (encB exHdr exMsgs)) (some (encMsg exBar ++ [])) =
      some (((encB exHdr (exMsgs ++ [exBar])).length : Int), some (encB exHdr (exMsgs ++ [exBar]))) :=
  (C16_append exHdr exMsgs exBar [] (exMsgs_fits _ (by simp [exMsgs]))).1

/-! ## C17 -/

/-- **C17 (union).**  All of the first bundle, then those messages of the second whose address is not there yet, first
occurrence first. -/
theorem C17_union (h1 h2 : Bytes) (ms1 ms2 : List Bytes) (junk : Bytes) (hh1 : h1.length = 16) (hh2 : h2.length = 16)
    (hf1 : ∀ m ∈ ms1, PlainMsg m) (hf2 : ∀ m ∈ ms2, PlainMsg m) (hne : ms1 ≠ [] ∨ ms2 ≠ []) :
    ∃ new, union (encB h1 ms1) (encB h2 ms2) junk = some (encB h1 (ms1 ++ new)) ∧ new.Sublist ms2 ∧
      (∀ a, a ∈ (ms1 ++ new).map addrOf ↔ a ∈ ms1.map addrOf ∨ a ∈ ms2.map addrOf) ∧
      ((ms1.map addrOf).Nodup → ((ms1 ++ new).map addrOf).Nodup) ∧
      (∀ m ∈ new, addrOf m ∉ ms1.map addrOf ∧ ms2.find? (fun x => addrOf x == addrOf m) = some m) := by
  obtain ⟨new, e, s1, s2, s3, s4⟩ := addNew_spec (fun _ => true) ms2 ms1
  refine ⟨new, ?_, s1, ?_, ?_, ?_⟩
  · rw [union_encB h1 h2 ms1 ms2 junk hh1 hh2 hf1 hf2 hne, e]
  · intro a
    rw [List.map_append, List.mem_append, s2]
    constructor
    · rintro (h | h)
      · exact Or.inl h
      · exact Or.inr h.1
    · rintro (h | h)
      · exact Or.inl h
      · by_cases h' : a ∈ ms1.map addrOf
        · exact Or.inl h'
        · exact Or.inr ⟨h, rfl, h'⟩
  · intro hn
    rw [List.map_append, List.nodup_append]
    refine ⟨hn, s3, ?_⟩
    intro a ha c hc hac
    exact ((s2 c).mp hc).2.2 (hac ▸ ha)
  · intro m hm
    exact ⟨((s2 _).mp (List.mem_map_of_mem hm)).2.2, s4 m hm⟩

/-- **C17 (intersection).**  Exactly the addresses in both, each once, with the first bundle's (first) value. -/
theorem C17_intersection (h1 h2 : Bytes) (ms1 ms2 : List Bytes) (junk : Bytes) (hh1 : h1.length = 16)
    (hh2 : h2.length = 16) (hf1 : ∀ m ∈ ms1, PlainMsg m) (hf2 : ∀ m ∈ ms2, PlainMsg m) (hn1 : ms1 ≠ []) (hn2 : ms2 ≠ []) :
    ∃ out, intersection (encB h1 ms1) (encB h2 ms2) junk = some (encB h1 out) ∧ out.Sublist ms1 ∧
      (∀ a, a ∈ out.map addrOf ↔ a ∈ ms1.map addrOf ∧ a ∈ ms2.map addrOf) ∧ (out.map addrOf).Nodup ∧
      (∀ m ∈ out, ms1.find? (fun x => addrOf x == addrOf m) = some m) := by
  obtain ⟨new, e, s1, s2, s3, s4⟩ := addNew_spec (fun a => decide (a ∈ ms2.map addrOf)) ms1 []
  refine ⟨new, ?_, s1, ?_, s3, s4⟩
  · rw [intersection_encB h1 h2 ms1 ms2 junk hh1 hh2 hf1 hf2 hn1 hn2, e]; rfl
  · intro a
    rw [s2]
    simp

/-- **C17 (difference).**  Exactly the addresses in one input only, each once, those of the first bundle first, with the
(first) value of the bundle they come from. -/
theorem C17_difference (h1 h2 : Bytes) (ms1 ms2 : List Bytes) (junk : Bytes) (hh1 : h1.length = 16)
    (hh2 : h2.length = 16) (hf1 : ∀ m ∈ ms1, PlainMsg m) (hf2 : ∀ m ∈ ms2, PlainMsg m) (hne : ms1 ≠ [] ∨ ms2 ≠ []) :
    ∃ o1 o2, difference (encB h1 ms1) (encB h2 ms2) junk = some (encB h1 (o1 ++ o2)) ∧ o1.Sublist ms1 ∧ o2.Sublist ms2 ∧
      (∀ a, a ∈ o1.map addrOf ↔ a ∈ ms1.map addrOf ∧ a ∉ ms2.map addrOf) ∧
      (∀ a, a ∈ o2.map addrOf ↔ a ∈ ms2.map addrOf ∧ a ∉ ms1.map addrOf) ∧
      ((o1 ++ o2).map addrOf).Nodup ∧
      (∀ m ∈ o1, ms1.find? (fun x => addrOf x == addrOf m) = some m) ∧
      (∀ m ∈ o2, ms2.find? (fun x => addrOf x == addrOf m) = some m) := by
  obtain ⟨o1, e1, s1, s2, s3, s4⟩ := addNew_spec (fun a => decide (a ∉ ms2.map addrOf)) ms1 []
  simp only [List.nil_append] at e1
  obtain ⟨o2, e2, t1, t2, t3, t4⟩ := addNew_spec (fun a => decide (a ∉ ms1.map addrOf)) ms2 o1
  have ho1 : ∀ a, a ∈ o1.map addrOf ↔ a ∈ ms1.map addrOf ∧ a ∉ ms2.map addrOf := by
    intro a
    rw [s2]
    simp only [decide_eq_true_eq, List.map_nil, List.not_mem_nil, not_false_eq_true, and_true]
  have ho2 : ∀ a, a ∈ o2.map addrOf ↔ a ∈ ms2.map addrOf ∧ a ∉ ms1.map addrOf := by
    intro a
    rw [t2]
    simp only [decide_eq_true_eq]
    constructor
    · rintro ⟨h1, h2, _⟩; exact ⟨h1, h2⟩
    · rintro ⟨h1, h2⟩; exact ⟨h1, h2, fun h => h2 ((ho1 a).mp h).1⟩
  have l1 : (encB h1 ms1).length = 16 + (encMsgs ms1).length := by simp [encB, hh1]
  have l2 : (encB h2 ms2).length = 16 + (encMsgs ms2).length := by simp [encB, hh2]
  have g1 := length_encMsgs_ge ms1
  have g2 := length_encMsgs_ge ms2
  have hlen : ∀ {a c : List Bytes}, a.Sublist c → (encMsgs a).length ≤ (encMsgs c).length := by
    intro a c h
    induction h with
    | slnil => simp
    | cons m _ ih => simp; omega
    | cons_cons m _ ih => simp; omega
  refine ⟨o1, o2, ?_, s1, t1, ho1, ho2, ?_, s4, t4⟩
  · rw [difference, if_neg ?_, slice_hdr _ _ hh1, bnd]
    · have d1 := diffHalf_encB ((encB h1 ms1).length + (encB h2 ms2).length) h1 h1 h2 ms1 ms2 [] hh1 hh1 hh2 hf1 hf2
        (by simp) (by simp [encB, hh1, hh2])
      have hnil : encB h1 [] = h1 := by simp [encB]
      rw [hnil, e1] at d1
      rw [d1, bnd]
      have d2 := diffHalf_encB ((encB h1 ms1).length + (encB h2 ms2).length) h1 h2 h1 ms2 ms1 o1 hh1 hh2 hh1 hf2 hf1
        (fun m hm => hf1 m (s1.subset hm)) (by
          have := hlen s1
          have : (encB h1 o1).length = 16 + (encMsgs o1).length := by simp [encB, hh1]
          omega)
      rw [d2, e2]
    · rcases hne with h | h
      · have := List.length_pos_iff.mpr h; omega
      · have := List.length_pos_iff.mpr h; omega
  · rw [List.map_append, List.nodup_append]
    refine ⟨s3, t3, ?_⟩
    intro a ha c hc hac
    exact ((ho2 c).mp hc).2 (hac ▸ ((ho1 a).mp ha).1)

example : union (encB exHdr [exFoo]) (encB exHdr [exBar, exFoo2]) [] = some (encB exHdr [exFoo, exBar]) ∧
    intersection (encB exHdr [exFoo, exBar]) (encB exHdr [exFoo2]) [] = some (encB exHdr [exFoo]) ∧
    difference (encB exHdr [exFoo]) (encB exHdr [exBar, exFoo2]) [] = some (encB exHdr [exBar]) := by decide +kernel
example := C17_union exHdr exHdr exMsgs exMsgs [] exHdr_len exHdr_len exMsgs_plain exMsgs_plain (Or.inl (by simp [exMsgs]))

/-- The union does not remove duplicates inside the first bundle: the hypothesis `Nodup` in `C17_union` is needed. -/
theorem C17_union_keeps_duplicates :
    union (encB exHdr [exFoo, exFoo2]) (encB exHdr [exBar]) [] = some (encB exHdr [exFoo, exFoo2, exBar]) := by
  decide +kernel

/-- With two empty bundles the time tag of the result is whatever the output buffer held before. -/
theorem C17_empty_union_uninitialised (junk : Bytes) :
    union exHdr exHdr junk = some (ident ++ junk.take 8) := by
  rfl

/-! ## C18 -/

/-- **C18 (lookup).**  A full-match lookup returns exactly the messages whose address completely matches the query, in
order; the existence test is true exactly when there is one. -/
theorem C18_lookup (hdr : Bytes) (ms : List Bytes) (q : Bytes) (hh : hdr.length = 16) (hq : (0 : UInt8) ∉ q)
    (hf : ∀ m ∈ ms, Fits m ∧ WFMsg m) :
    ∃ (vs : List View) (hits : List Bytes), lookupAddress (encB hdr ms).length (encB hdr ms) q true = some vs ∧
      vs.mapM (View.bytes (encB hdr ms)) = some (hits.map encMsg) ∧ hits.Sublist ms ∧
      (∀ m, m ∈ hits ↔ m ∈ ms ∧ ∃ r, oscMatch q (addrOf m) = some r ∧ r.code = 3) ∧
      addressExists (encB hdr ms).length (encB hdr ms) q true = some (!hits.isEmpty) := by
  obtain ⟨vs, hvs, hV⟩ := lookupAddress_encB hdr ms q true hh hq hf
  refine ⟨vs, _, hvs, hV.1, List.filter_sublist, ?_, ?_⟩
  · intro m
    rw [List.mem_filter]
    constructor
    · rintro ⟨h1, h2⟩
      refine ⟨h1, ?_⟩
      rw [sel_full, full] at h2
      cases hr : oscMatch q (addrOf m) with
      | none => rw [hr] at h2; simp at h2
      | some r => rw [hr] at h2; exact ⟨r, rfl, by simpa using h2⟩
    · rintro ⟨h1, r, h2, h3⟩
      refine ⟨h1, ?_⟩
      rw [sel_full, full, h2]
      simp [h3]
  · rw [addressExists_encB hdr ms q true hh hq (fun m hm => ⟨(hf m hm).1, (hf m hm).2.hasAddr⟩)]
    congr 1
    clear hvs hV
    induction ms with
    | nil => rfl
    | cons m ms ih =>
      rw [List.any_cons, List.filter_cons]
      cases h : sel q true (addrOf m) with
      | true => simp
      | false =>
        rw [if_neg (by simp), Bool.false_or]
        exact ih (fun m hm => hf m (List.mem_cons_of_mem _ hm))

/-- **C18 (first match).**  The first-match query returns the position of the first completely matching message, or nothing
when there is none; the same for equality of addresses. -/
theorem C18_first (hdr : Bytes) (ms : List Bytes) (q : Bytes) (hh : hdr.length = 16) (hq : (0 : UInt8) ∉ q)
    (hf : ∀ m ∈ ms, Fits m ∧ HasAddr m) :
    (getFirstFullMatch (encB hdr ms).length (encB hdr ms) q = some none ∧
        (∀ m ∈ ms, ∀ r, oscMatch q (addrOf m) = some r → r.code ≠ 3)) ∨
    (∃ pre m post r, ms = pre ++ m :: post ∧ oscMatch q (addrOf m) = some r ∧ r.code = 3 ∧
        (∀ x ∈ pre, ∀ r, oscMatch q (addrOf x) = some r → r.code ≠ 3) ∧
        getFirstFullMatch (encB hdr ms).length (encB hdr ms) q = some (some (encB hdr pre).length)) := by
  have key : getFirstFullMatch (encB hdr ms).length (encB hdr ms) q =
      foldPos (fun pos m (_ : Option Nat) => if full q (addrOf m) then some (some pos, true) else some (none, false)) 16 ms none := by
    rw [getFirstFullMatch, msgLoop_encB _ (fun pos m (_ : Option Nat) =>
      if full q (addrOf m) then some (some pos, true) else some (none, false)) hdr ms _ _ hh (fun m h => (hf m h).1) (by simp) ?_]
    intro p m t s hm hb
    obtain ⟨r, hr, _⟩ := C14_total q (addrOf m) hq
    have hc : cstr (encB hdr ms) (p.length + 4) = some (addrOf m) := by
      rw [hb]; exact cstr_at _ _ _ (hf m hm).2
    rw [hc, bnd, hr, bnd, full, hr]
    by_cases h3 : r.code = 3
    · rw [if_pos h3, if_pos (by simp [h3])]; rfl
    · rw [if_neg h3, if_neg (by simp [h3])]; rfl
  have nofull : ∀ x, full q (addrOf x) = false → ∀ r, oscMatch q (addrOf x) = some r → r.code ≠ 3 := by
    intro x hx r hr
    rw [full, hr] at hx
    simpa using hx
  rw [key]
  rcases first_foldPos (fun m => full q (addrOf m)) ms 16 with ⟨h1, h2⟩ | ⟨pre, m, post, h1, h2, h3, h4⟩
  · left
    exact ⟨h1, fun m hm => nofull m (h2 m hm)⟩
  · right
    have hr : ∃ r, oscMatch q (addrOf m) = some r ∧ r.code = 3 := by
      simp only [full] at h3
      cases hr : oscMatch q (addrOf m) with
      | none => rw [hr] at h3; simp at h3
      | some r => rw [hr] at h3; exact ⟨r, rfl, by simpa using h3⟩
    obtain ⟨r, hr, h3'⟩ := hr
    refine ⟨pre, m, post, r, h1, hr, h3', fun x hx => nofull x (h2 x hx), ?_⟩
    rw [h4]
    simp [encB, hh]

/-- **C18 (first equal).** -/
theorem C18_first_equal (hdr : Bytes) (ms : List Bytes) (q : Bytes) (hh : hdr.length = 16)
    (hf : ∀ m ∈ ms, Fits m ∧ HasAddr m) :
    (getFirstEqualAddr (encB hdr ms).length (encB hdr ms) q = some none ∧ ∀ m ∈ ms, addrOf m ≠ q) ∨
    (∃ pre m post, ms = pre ++ m :: post ∧ addrOf m = q ∧ (∀ x ∈ pre, addrOf x ≠ q) ∧
        getFirstEqualAddr (encB hdr ms).length (encB hdr ms) q = some (some (encB hdr pre).length)) := by
  have key : getFirstEqualAddr (encB hdr ms).length (encB hdr ms) q =
      foldPos (fun pos m (_ : Option Nat) => if (q == addrOf m) then some (some pos, true) else some (none, false)) 16 ms none := by
    rw [getFirstEqualAddr, msgLoop_encB _ (fun pos m (_ : Option Nat) =>
      if (q == addrOf m) then some (some pos, true) else some (none, false)) hdr ms _ _ hh (fun m h => (hf m h).1) (by simp) ?_]
    intro p m t s hm hb
    have hc : cstr (encB hdr ms) (p.length + 4) = some (addrOf m) := by
      rw [hb]; exact cstr_at _ _ _ (hf m hm).2
    rw [hc, bnd]
    by_cases h3 : q = addrOf m
    · rw [if_pos h3, if_pos (by simpa using h3)]; rfl
    · rw [if_neg h3, if_neg (by simpa using h3)]; rfl
  rw [key]
  rcases first_foldPos (fun m => q == addrOf m) ms 16 with ⟨h1, h2⟩ | ⟨pre, m, post, h1, h2, h3, h4⟩
  · left
    exact ⟨h1, fun m hm h => by have := h2 m hm; simp [h] at this⟩
  · right
    refine ⟨pre, m, post, h1, by simpa using (beq_iff_eq.mp h3).symm, fun x hx h => by have := h2 x hx; simp [h] at this, ?_⟩
    rw [h4]
    simp [encB, hh]

/-- **C18 against the pattern language**: with a pattern without empty alternatives and few enough branchings, lookup finds
exactly the messages whose address the pattern describes. -/
theorem C18_lookup_pattern_partial (hdr : Bytes) (ms : List Bytes) (ps : List (List PatSpec.Tok)) (hh : hdr.length = 16)
    (hp : PatSpec.WFPat ps) (hn : ∀ ts ∈ ps, ∀ t ∈ ts, t.NonNull) (hf : ∀ m ∈ ms, Fits m ∧ WFMsg m)
    (K M : Nat) (hK : ∀ ts ∈ ps, PatSpec.branching ts ≤ K) (hW : ∀ ts ∈ ps, ∀ t ∈ ts, t.width ≤ M)
    (hM : ∀ m ∈ ms, ∀ as, PatSpec.WFAddr as → PatSpec.addrText as = addrOf m → ∀ s ∈ as, s.length ≤ M) (hKM : K * M ≤ 999)
    (hq0 : (0 : UInt8) ∉ PatSpec.patText ps) :
    ∃ (vs : List View) (hits : List Bytes), lookupAddress (encB hdr ms).length (encB hdr ms) (PatSpec.patText ps) true = some vs ∧
      vs.mapM (View.bytes (encB hdr ms)) = some (hits.map encMsg) ∧ hits.Sublist ms ∧
      (∀ m ∈ ms, ∀ as, PatSpec.WFAddr as → PatSpec.addrText as = addrOf m → (m ∈ hits ↔ PatSpec.AllMatch ps as)) := by
  obtain ⟨vs, hits, h1, h2, h3, h4, _⟩ := C18_lookup hdr ms (PatSpec.patText ps) hh hq0 hf
  refine ⟨vs, hits, h1, h2, h3, ?_⟩
  intro m hm as ha he
  rw [h4, ← he, C11_match_iff_partial ps as hp ha hn K M hK hW (hM m hm as ha he) hKM]
  exact ⟨fun h => h.2, fun h => ⟨hm, h⟩⟩

/-- In partial-match mode an ill-formed query is taken to match: the error code of the matcher is not looked at, so the
query `/{x` "exists" in a bundle that only holds `/foo`, `/bar` and `/foo`. -/
theorem C18_partial_mode_error_matches :
    oscMatch (b "/{x") (b "/foo") = some ⟨0x300, 0, 0⟩ ∧
    addressExists (encB exHdr exMsgs).length (encB exHdr exMsgs) (b "/{x") false = some true := by decide +kernel

example := C18_lookup exHdr exMsgs (b "/f*") exHdr_len (by decide +kernel) exMsgs_ok
example : getFirstFullMatch (encB exHdr exMsgs).length (encB exHdr exMsgs) (b "/b?r") = some (some 36) := by decide +kernel

/-! ## C19 -/

/-- **C19, full statement**: the bound test is true exactly when some matching message has an argument, i.e. its type tag
string has a second character. -/
def C19_full : Prop :=
  ∀ (hdr : Bytes) (msgs : List (Bytes × Bytes × Bytes)) (q : Bytes), hdr.length = 16 → (0 : UInt8) ∉ q →
    (∀ x ∈ msgs, (0 : UInt8) ∉ x.1 ∧ (0 : UInt8) ∉ x.2.1 ∧ x.2.1.head? = some 44) →
    (∀ x ∈ msgs, Fits (padStr x.1 ++ padStr x.2.1 ++ x.2.2)) →
    let buf := encB hdr (msgs.map fun x => padStr x.1 ++ padStr x.2.1 ++ x.2.2)
    ∃ r, addressIsBound buf.length buf q true = some r ∧
      (r = true ↔ ∃ x ∈ msgs, (∃ r, oscMatch q x.1 = some r ∧ r.code = 3) ∧ 2 ≤ x.2.1.length)

/-- The full statement fails: the code computes the position of the type tags from the length of the *query*, so with the
query `/*` it looks at the fifth character of the address `/abcdefg` and reports an argument where there is none. -/
theorem C19_full_fails : ¬ C19_full := by
  intro h
  obtain ⟨r, hr, h1⟩ := h exHdr [(b "/abcdefg", b ",", [])] (b "/*") exHdr_len (by decide +kernel)
    (by decide +kernel) (by unfold Fits; decide +kernel)
  have hf : addressIsBound (encB exHdr [padStr (b "/abcdefg") ++ padStr (b ",") ++ []]).length
    (encB exHdr [padStr (b "/abcdefg") ++ padStr (b ",") ++ []]) (b "/*") true = some true := by decide +kernel
  simp only [List.map_cons, List.map_nil] at hr
  rw [hf] at hr
  cases hr
  obtain ⟨x, hx, _, h2⟩ := h1.mp rfl
  rw [List.mem_singleton] at hx
  subst hx
  exact absurd h2 (by decide +kernel)

/-- **C19, what holds**: the full statement for queries whose padded length is that of every matching address (for
instance plain addresses, where matching is equality).  Missing: patterns longer or shorter than the address. -/
theorem C19_bound_partial (hdr : Bytes) (msgs : List (Bytes × Bytes × Bytes)) (q : Bytes) (hh : hdr.length = 16)
    (hq : (0 : UInt8) ∉ q)
    (hw : ∀ x ∈ msgs, (0 : UInt8) ∉ x.1 ∧ (0 : UInt8) ∉ x.2.1 ∧ x.2.1.head? = some 44)
    (hfit : ∀ x ∈ msgs, Fits (padStr x.1 ++ padStr x.2.1 ++ x.2.2))
    (hlen : ∀ x ∈ msgs, ∀ r, oscMatch q x.1 = some r → r.code = 3 → padStrLen q.length = padStrLen x.1.length)
    (hsz : ∀ x ∈ msgs, x.1.length + 4 < 4294967296 ∧ x.2.1.length + 4 < 4294967296) :
    ∃ r, addressIsBound (encB hdr (msgs.map fun x => padStr x.1 ++ padStr x.2.1 ++ x.2.2)).length
        (encB hdr (msgs.map fun x => padStr x.1 ++ padStr x.2.1 ++ x.2.2)) q true = some r ∧
      (r = true ↔ ∃ x ∈ msgs, (∃ r, oscMatch q x.1 = some r ∧ r.code = 3) ∧ 2 ≤ x.2.1.length) := by
  have haddr : ∀ x ∈ msgs, addrOf (padStr x.1 ++ padStr x.2.1 ++ x.2.2) = x.1 := by
    intro x hx
    rw [List.append_assoc]; exact addrOf_padStr _ _ (hw x hx).1 (hsz x hx).1
  have hhas : ∀ x ∈ msgs, HasAddr (padStr x.1 ++ padStr x.2.1 ++ x.2.2) := by
    intro x hx
    obtain ⟨z, hz⟩ := padStr_eq_cons x.1 (hsz x hx).1
    rw [HasAddr, hz]; simp
  have hbody : ∀ p m t (s : Bool), m ∈ (msgs.map fun x => padStr x.1 ++ padStr x.2.1 ++ x.2.2) →
      encB hdr (msgs.map fun x => padStr x.1 ++ padStr x.2.1 ++ x.2.2) = p ++ encMsg m ++ t →
      ∃ x ∈ msgs, m = padStr x.1 ++ padStr x.2.1 ++ x.2.2 := by
    intro p m t s hm _
    obtain ⟨x, hx, rfl⟩ := List.mem_map.mp hm
    exact ⟨x, hx, rfl⟩
  -- the test the loop performs, as a function of the message body
  let T : Bytes → Bool := fun m => full q (addrOf m) && (match (m.drop (padStrLen q.length))[1]? with
    | some c => c != 0 | none => false)
  have hT : ∀ x ∈ msgs, T (padStr x.1 ++ padStr x.2.1 ++ x.2.2) = (full q x.1 && decide (2 ≤ x.2.1.length)) := by
    intro x hx
    simp only [T, haddr x hx]
    cases hfl : full q x.1 with
    | false => rfl
    | true =>
      have : ∃ r, oscMatch q x.1 = some r ∧ r.code = 3 := by
        rw [full] at hfl
        cases hr : oscMatch q x.1 with
        | none => rw [hr] at hfl; simp at hfl
        | some r => rw [hr] at hfl; exact ⟨r, rfl, by simpa using hfl⟩
      obtain ⟨r, hr, h3⟩ := this
      rw [hlen x hx r hr h3, show padStrLen x.1.length = (padStr x.1).length from (length_padStr x.1 (hsz x hx).1).symm,
        List.append_assoc, List.drop_left]
      have hw2 := hw x hx
      obtain ⟨z, hz⟩ := padStr_eq_cons x.2.1 (hsz x hx).2
      match htt : x.2.1 with
      | [] => rw [htt] at hw2; simp at hw2
      | [c] =>
        rw [htt] at hz
        rw [hz]; simp
      | c :: d :: tl =>
        rw [htt] at hz hw2
        rw [hz]
        have hd : d ≠ 0 := fun h => hw2.2.1 (by simp [h])
        simp [hd]
  have key : addressIsBound (encB hdr (msgs.map fun x => padStr x.1 ++ padStr x.2.1 ++ x.2.2)).length
        (encB hdr (msgs.map fun x => padStr x.1 ++ padStr x.2.1 ++ x.2.2)) q true =
      foldPos (fun _ m (_ : Bool) => some (T m, T m)) 16 (msgs.map fun x => padStr x.1 ++ padStr x.2.1 ++ x.2.2) false := by
    rw [addressIsBound, msgLoop_encB _ (fun _ m (_ : Bool) => some (T m, T m)) hdr _ _ _ hh ?_ (by simp) ?_]
    · intro m hm
      obtain ⟨x, hx, rfl⟩ := List.mem_map.mp hm
      exact hfit x hx
    · intro p m t s hm hb
      obtain ⟨x, hx, he⟩ := hbody p m t s hm hb
      have hTx := hT x hx
      obtain ⟨r, hr, ha⟩ := match_sel q hq true x.1
      have hc : cstr (encB hdr (msgs.map fun x => padStr x.1 ++ padStr x.2.1 ++ x.2.2)) (p.length + 4) = some x.1 := by
        rw [hb, cstr_at _ _ _ (by rw [he]; exact hhas x hx), he, haddr x hx]
      rw [hc, bnd, hr, bnd, ha, bnd, sel_full]
      rw [← he] at hTx
      cases hfl : full q x.1 with
      | false =>
        rw [hfl] at hTx
        simp only [Bool.false_and] at hTx
        rw [hTx]; rfl
      | true =>
        have h3 : r.code = 3 := by rw [full, hr] at hfl; simpa using hfl
        have hl := hlen x hx r hr h3
        simp only [Bool.not_true, Bool.false_eq_true, if_false]
        have hpl := length_padStr x.1 (hsz x hx).1
        obtain ⟨z, hz⟩ := padStr_eq_cons x.2.1 (hsz x hx).2
        have hw2 := hw x hx
        have htl : 1 ≤ x.2.1.length := by
          cases htt : x.2.1 with
          | nil => rw [htt] at hw2; simp at hw2
          | cons c tl => simp
        have hml : padStrLen q.length + x.2.1.length + 1 ≤ m.length := by
          rw [he, hl, hz]
          simp only [List.length_append, List.length_cons, hpl, padStrLen, padN]
          omega
        rw [if_pos (by omega)]
        have hrd : rd8 (encB hdr (msgs.map fun x => padStr x.1 ++ padStr x.2.1 ++ x.2.2))
            (p.length + 4 + padStrLen q.length + 1) = (m.drop (padStrLen q.length))[1]? := by
          rw [hb]
          have e : p ++ encMsg m ++ t = (p ++ be32 m.length) ++ (m ++ t) := by rw [encMsg]; simp
          have := rd8_append_right (p ++ be32 m.length) (m ++ t) (padStrLen q.length + 1)
          rw [← e] at this
          simp only [List.length_append, length_be32] at this
          rw [← Nat.add_assoc] at this
          rw [this, rd8_append_left _ _ _ (by omega), rd8, List.getElem?_drop]
        rw [hrd]
        have hsome : ∃ c, (m.drop (padStrLen q.length))[1]? = some c := by
          rw [List.getElem?_drop]
          exact ⟨_, List.getElem?_eq_getElem (by omega)⟩
        obtain ⟨c, hcc⟩ := hsome
        have hTm : T m = (c != 0) := by
          simp only [T, hcc]
          rw [show addrOf m = x.1 by rw [he]; exact haddr x hx, hfl]
          simp
        rw [hcc, bnd, hTm]
        by_cases hc0 : c = 0
        · rw [if_neg (by simpa using hc0)]; simp [hc0]
        · rw [if_pos hc0]; simp [hc0]
  have hany : ∀ (l : List Bytes) pos, foldPos (fun _ m (_ : Bool) => some (T m, T m)) pos l false = some (l.any T) := by
    intro l
    induction l with
    | nil => intro pos; rfl
    | cons m l ih =>
      intro pos
      simp only [foldPos, Option.bind_eq_bind, Option.bind_some, List.any_cons]
      cases h : T m with
      | true => rfl
      | false => simp [ih]
  refine ⟨_, by rw [key, hany], ?_⟩
  rw [List.any_eq_true]
  constructor
  · rintro ⟨m, hm, ht⟩
    obtain ⟨x, hx, rfl⟩ := List.mem_map.mp hm
    rw [hT x hx, Bool.and_eq_true] at ht
    refine ⟨x, hx, ?_, by simpa using ht.2⟩
    have hfl := ht.1
    rw [full] at hfl
    cases hr : oscMatch q x.1 with
    | none => rw [hr] at hfl; simp at hfl
    | some r => rw [hr] at hfl; exact ⟨r, rfl, by simpa using hfl⟩
  · rintro ⟨x, hx, ⟨r, hr, h3⟩, h2⟩
    refine ⟨_, List.mem_map_of_mem hx, ?_⟩
    rw [hT x hx, full, hr]
    simp [h3, h2]

example : addressIsBound (encB exHdr exMsgs).length (encB exHdr exMsgs) (b "/bar") true = some false ∧
    addressIsBound (encB exHdr exMsgs).length (encB exHdr exMsgs) (b "/foo") true = some true := by decide +kernel

end Libo.Props
