import Verif.Basic
/-!
# Model of the serial state machine (`osc_serial.c`)

The state is a 64 bit word.  Bit operations are the literal ones on numbers below 2^64.
-/

namespace Libo.Serial
open Libo

/-- The constants of `osc_serial.h`: macro states. -/
def INIT : Nat := 0
def BUNDLE_HEADER : Nat := 0x0100000000000000
def BUNDLE_MESSAGE : Nat := 0x0200000000000000
def MESSAGE : Nat := 0x0400000000000000
/-- Header states. -/
def HEADER_ID : Nat := 0x0001000000000000
def HEADER_TIMETAG : Nat := 0x0002000000000000
/-- Message states. -/
def SIZE : Nat := 0x0001000000000000
def ADDRESS : Nat := 0x0002000000000000
def TYPETAGS : Nat := 0x0004000000000000
def DATA : Nat := 0x0008000000000000
/-- Address micro states. -/
def CURLY : Nat := 0x0000010000000000
def CURLY_COMMA : Nat := 0x0000020000000000
def SQUARE : Nat := 0x0000040000000000
def SQUARE_DASH : Nat := 0x0000080000000000
def ADDRESS_NULL : Nat := 0x0000100000000000
/-- Type tag micro state. -/
def TYPETAGS_NULL : Nat := 0x0000010000000000
/-- Errors. -/
def E_BADHEADER : Nat := 0x0000000100000000
def E_NOLEADINGSLASH : Nat := 0x0000000300000000
def E_NESTEDBRACKETS : Nat := 0x0000000400000000
def E_WILDCARD : Nat := 0x0000000500000000
def E_BADALIGNMENT : Nat := 0x0000000600000000
def E_TYPETAG : Nat := 0x0000000700000000
def E_NOTYPETAGS : Nat := 0x0000000800000000
def E_DOUBLEDASH : Nat := 0x0000000a00000000
def E_DOUBLECOMMA : Nat := 0x0000000b00000000
def E_RCURLY : Nat := 0x0000000c00000000
def E_LCURLY : Nat := 0x0000000d00000000
def E_RSQUARE : Nat := 0x0000000e00000000
def E_LSQUARE : Nat := 0x0000000f00000000

/-- `osc_serial_counter` (`osc_serial.c` lines 169-172). -/
def counter (s : Nat) : Nat := s &&& 0xffffffff

/-- `osc_serial_errorp` (`osc_serial.c` lines 188-191). -/
def errorp (s : Nat) : Bool := s &&& 0x000000ff00000000 != 0

/-- `s + 1`, `s - 1` on `uint64_t`; `count + 1`, `count - k` on `uint32_t`. -/
def inc (s : Nat) : Nat := (s + 1) % 2 ^ 64
def dec (s : Nat) : Nat := (s + (2 ^ 64 - 1)) % 2 ^ 64
def inc32 (c : Nat) : Nat := (c + 1) % 2 ^ 32
def sub32 (c k : Nat) : Nat := (c + (2 ^ 32 - k)) % 2 ^ 32

/-- `((int32_t)b & 0xff) << k` widened to 64 bits with its sign, as gcc and clang compute it. -/
def shl (b : UInt8) (k : Nat) : Nat :=
  let x := b.toNat * 2 ^ k
  if x < 2 ^ 31 then x else x + (2 ^ 64 - 2 ^ 32)

/-- The type tags accepted (`osc_serial.c` lines 386-401 and 506-521). -/
def tagOK (b : UInt8) : Bool := [99, 67, 117, 85, 105, 73, 104, 72, 102, 100, 115, 84, 70, 78, 116, 46].contains b

/-- The states of a message outside a bundle: case `OSC_SERIAL_MESSAGE_DATA` (line 539). -/
def nakedData (s : Nat) : Nat := inc s

/-- Case `OSC_SERIAL_MESSAGE_TYPETAGS` (lines 502-538), falling through to the data case. -/
def nakedTypetags (b : UInt8) (s micro count : Nat) : Nat :=
  if micro = 0 then
    if tagOK b then inc s else if b = 0 then inc (s ||| TYPETAGS_NULL) else s ||| E_TYPETAG
  else if micro = TYPETAGS_NULL then
    if count % 4 = 3 then MESSAGE ||| DATA ||| inc32 count
    else if b = 0 then inc s else E_BADALIGNMENT
  else nakedData s

/-- Case `OSC_SERIAL_MESSAGE_ADDRESS_INSIDECURLYBRACKETS` (lines 447-462). -/
def nakedCurly (b : UInt8) (s count : Nat) : Nat :=
  if b = 91 ∨ b = 93 ∨ b = 123 then s ||| E_NESTEDBRACKETS
  else if b = 42 ∨ b = 63 then s ||| E_WILDCARD
  else if b = 44 then MESSAGE ||| ADDRESS ||| CURLY_COMMA ||| inc32 count
  else if b = 125 then MESSAGE ||| ADDRESS ||| inc32 count
  else inc s

/-- Case `OSC_SERIAL_MESSAGE_ADDRESS_INSIDESQUAREBRACKETS` (lines 469-484). -/
def nakedSquare (b : UInt8) (s count : Nat) : Nat :=
  if b = 123 ∨ b = 125 ∨ b = 91 then s ||| E_NESTEDBRACKETS
  else if b = 42 ∨ b = 63 then s ||| E_WILDCARD
  else if b = 45 then MESSAGE ||| ADDRESS ||| SQUARE_DASH ||| inc32 count
  else if b = 93 then MESSAGE ||| ADDRESS ||| inc32 count
  else inc s

/-- Case `OSC_SERIAL_MESSAGE_ADDRESS` (lines 428-501), falling through to the type tags case. -/
def nakedAddress (b : UInt8) (s micro count : Nat) : Nat :=
  if micro = 0 then
    if b = 91 then inc (s ||| SQUARE) else if b = 123 then inc (s ||| CURLY)
    else if b = 0 then inc (s ||| ADDRESS_NULL) else inc s
  else if micro = CURLY_COMMA then if b = 44 then s ||| E_DOUBLECOMMA else nakedCurly b s count
  else if micro = CURLY then nakedCurly b s count
  else if micro = SQUARE_DASH then if b = 45 then s ||| E_DOUBLEDASH else nakedSquare b s count
  else if micro = SQUARE then nakedSquare b s count
  else if micro = ADDRESS_NULL then
    if count % 4 = 3 then
      if b = 44 then MESSAGE ||| TYPETAGS ||| inc32 count else if b = 0 then s ||| E_BADALIGNMENT else s ||| E_NOTYPETAGS
    else if b = 0 then inc s else s ||| E_BADALIGNMENT
  else nakedTypetags b s micro count

/-- Case `OSC_SERIAL_MESSAGE` (lines 426-541), falling through to `return 0`. -/
def naked (b : UInt8) (s state micro count : Nat) : Nat :=
  if state = ADDRESS then nakedAddress b s micro count
  else if state = TYPETAGS then nakedTypetags b s micro count
  else if state = DATA then nakedData s
  else 0

/-- Case `OSC_SERIAL_MESSAGE_SIZE` of a message in a bundle (lines 278-299). -/
def msgSize (b : UInt8) (count : Nat) : Nat :=
  let c := count &&& 0xff
  if c = 0 then BUNDLE_MESSAGE ||| SIZE ||| shl b 16 ||| (c + 1)
  else if c = 1 then BUNDLE_MESSAGE ||| SIZE ||| shl b 8 ||| (c + 1)
  else if c = 2 then
    let count := count ||| (if b.toNat < 128 then b.toNat else b.toNat + (2 ^ 32 - 256))
    BUNDLE_MESSAGE ||| SIZE ||| sub32 count 2
  else if b = 47 then BUNDLE_MESSAGE ||| ADDRESS ||| sub32 count 1
  else BUNDLE_MESSAGE ||| ADDRESS ||| E_NOLEADINGSLASH

/-- Case `OSC_SERIAL_MESSAGE_DATA` of a message in a bundle (lines 419-424). -/
def msgData (s count : Nat) : Nat := if count = 0 then BUNDLE_MESSAGE ||| SIZE else dec s

/-- Case `OSC_SERIAL_MESSAGE_TYPETAGS` of a message in a bundle (lines 382-418), falling through to the data case. -/
def msgTypetags (b : UInt8) (s micro count : Nat) : Nat :=
  if micro = 0 then
    if tagOK b then dec s else if b = 0 then dec (s ||| TYPETAGS_NULL) else s ||| E_TYPETAG
  else if micro = TYPETAGS_NULL then
    if count % 4 = 0 then BUNDLE_MESSAGE ||| DATA ||| sub32 count 1
    else if b = 0 then dec s else E_BADALIGNMENT
  else msgData s count

/-- Case `OSC_SERIAL_MESSAGE_ADDRESS_INSIDECURLYBRACKETS` of a message in a bundle (lines 323-340). -/
def msgCurly (b : UInt8) (s count : Nat) : Nat :=
  if b = 91 ∨ b = 93 ∨ b = 123 then s ||| E_NESTEDBRACKETS
  else if b = 42 ∨ b = 63 then s ||| E_WILDCARD
  else if b = 44 then BUNDLE_MESSAGE ||| ADDRESS ||| CURLY_COMMA ||| sub32 count 1
  else if b = 125 then BUNDLE_MESSAGE ||| ADDRESS ||| sub32 count 1
  else if b = 0 then E_LCURLY
  else dec s

/-- Case `OSC_SERIAL_MESSAGE_ADDRESS_INSIDESQUAREBRACKETS` of a message in a bundle (lines 347-364). -/
def msgSquare (b : UInt8) (s count : Nat) : Nat :=
  if b = 123 ∨ b = 125 ∨ b = 91 then s ||| E_NESTEDBRACKETS
  else if b = 42 ∨ b = 63 then s ||| E_WILDCARD
  else if b = 45 then BUNDLE_MESSAGE ||| ADDRESS ||| SQUARE_DASH ||| sub32 count 1
  else if b = 93 then BUNDLE_MESSAGE ||| ADDRESS ||| sub32 count 1
  else if b = 0 then E_LSQUARE
  else dec s

/-- Case `OSC_SERIAL_MESSAGE_ADDRESS` of a message in a bundle (lines 300-381), falling through to the type tags case. -/
def msgAddress (b : UInt8) (s micro count : Nat) : Nat :=
  if micro = 0 then
    if b = 91 then dec (s ||| SQUARE) else if b = 123 then dec (s ||| CURLY)
    else if b = 0 then dec (s ||| ADDRESS_NULL)
    else if b = 93 then s ||| E_RSQUARE else if b = 125 then s ||| E_RCURLY
    else dec s
  else if micro = CURLY_COMMA then if b = 44 then s ||| E_DOUBLECOMMA else msgCurly b s count
  else if micro = CURLY then msgCurly b s count
  else if micro = SQUARE_DASH then if b = 45 then s ||| E_DOUBLEDASH else msgSquare b s count
  else if micro = SQUARE then msgSquare b s count
  else if micro = ADDRESS_NULL then
    if count % 4 = 0 then
      if b = 44 then BUNDLE_MESSAGE ||| TYPETAGS ||| sub32 count 1
      else if b = 0 then s ||| E_BADALIGNMENT else s ||| E_NOTYPETAGS
    else if b = 0 then dec s else s ||| E_BADALIGNMENT
  else msgTypetags b s micro count

/-- Case `OSC_SERIAL_BUNDLE_MESSAGE` (lines 276-425), falling through to `OSC_SERIAL_MESSAGE`. -/
def msgCase (b : UInt8) (s state micro count : Nat) : Nat :=
  if state = SIZE then msgSize b count
  else if state = ADDRESS then msgAddress b s micro count
  else if state = TYPETAGS then msgTypetags b s micro count
  else if state = DATA then msgData s count
  else naked b s state micro count

/-- The characters of the identifier after the `#` (lines 216-257). -/
def idChar (count : Nat) : Option UInt8 := ([98, 117, 110, 100, 108, 101, 0] : List UInt8)[count]?

/-- Case `OSC_SERIAL_BUNDLE_HEADER_TIMETAG` (lines 261-274), falling through to `OSC_SERIAL_BUNDLE_MESSAGE`. -/
def headerTime (b : UInt8) (s state micro count : Nat) : Nat :=
  if count < 7 then inc s
  else if count = 7 then BUNDLE_MESSAGE ||| SIZE ||| shl b 24
  else msgCase b s state micro count

/-- Case `OSC_SERIAL_BUNDLE_HEADER` (lines 212-275), falling through to `OSC_SERIAL_BUNDLE_MESSAGE`. -/
def header (b : UInt8) (s state micro count : Nat) : Nat :=
  if state = HEADER_ID then
    match idChar count with
    | some c => if b = c then inc s else BUNDLE_HEADER ||| HEADER_ID ||| E_BADHEADER
    | none => if count = 7 then BUNDLE_HEADER ||| HEADER_TIMETAG else headerTime b s state micro count
  else if state = HEADER_TIMETAG then headerTime b s state micro count
  else msgCase b s state micro count

/-- `osc_serial_processByte` (`osc_serial.c` lines 193-547). -/
def processByte (b : UInt8) (s : Nat) : Nat :=
  let macroS := s &&& 0xff00000000000000
  let state := s &&& 0x00ff000000000000
  let micro := s &&& 0x0000ff0000000000
  let count := s &&& 0x00000000ffffffff
  if macroS = INIT then
    if b = 35 then BUNDLE_HEADER ||| HEADER_ID else if b = 47 then MESSAGE ||| ADDRESS else E_BADHEADER
  else if macroS = BUNDLE_HEADER then header b s state micro count
  else if macroS = BUNDLE_MESSAGE then msgCase b s state micro count
  else if macroS = MESSAGE then naked b s state micro count
  else 0

/-- Feeding bytes one at a time. -/
def run (s : Nat) (bs : Bytes) : Nat := bs.foldl (fun s b => processByte b s) s

end Libo.Serial
