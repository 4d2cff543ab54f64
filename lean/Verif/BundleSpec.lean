import Verif.Basic
/-!
# Specification vocabulary for serialised bundles

Independent of the model: what a serialised bundle with given messages looks like according to the OSC 1.0 text
(16 byte header, then for every message a 4 byte big-endian size and the message body).
-/

namespace Libo

/-- The identifier at the start of every bundle, `"#bundle\0"`. -/
def ident : Bytes := [35, 98, 117, 110, 100, 108, 101, 0]

/-- A message as it lies in a bundle: size prefix and body. -/
def encMsg (m : Bytes) : Bytes := be32 m.length ++ m

/-- The messages one after the other. -/
def encMsgs (ms : List Bytes) : Bytes := ms.flatMap encMsg

/-- A serialised bundle with header `hdr` and message bodies `ms`. -/
def encB (hdr : Bytes) (ms : List Bytes) : Bytes := hdr ++ encMsgs ms

/-- The address of a message body: everything before the first NUL. -/
def addrOf (m : Bytes) : Bytes := m.takeWhile (· != 0)

/-- Body size fits the size field (positive `int32_t`). -/
def Fits (m : Bytes) : Prop := m.length + 4 < 2147483648

/-- The body holds a NUL terminated address. -/
def HasAddr (m : Bytes) : Prop := (0 : UInt8) ∈ m

/-- A message whose pieces can all be located without leaving the message: a padded address followed by
either fewer than four bytes or something that contains a NUL (the end of the type tag string). -/
def WFMsg (m : Bytes) : Prop :=
  ∃ a t, (0 : UInt8) ∉ a ∧ a.length + 4 < 4294967296 ∧ m = padStr a ++ t ∧ (t.length < 4 ∨ (0 : UInt8) ∈ t)

end Libo
