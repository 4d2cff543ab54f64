import Verif.Printf
import Verif.Name
/-!
# Reports of errors

Modelled: `osc_error_handler`, `osc_error_setHandler` and `osc_error_string` of `/repo/osc_error.c`, and of `/repo/osc_expr_parser.y` the
functions that report errors in expressions: `osc_expr_error_formatLocation`, `osc_expr_error`, `yyerror` and the two reports for unknown
functions and for wrong targets of assignments.
Simplified: the handler that has been installed is an argument.  Strings have no zero bytes and less than 2 GiB.  Of formats there are the
conversions `%d`, `%s` and `%%`, which are all that the library uses; a conversion without an argument of its type is `none`, and so is
any other conversion.
-/

namespace Libo.Err
open Libo

/-- `osc_error_string`, `osc_error.c` lines 86-135, with the codes of `osc_error.h` lines 51-72.  `OSC_HEADER_SIZE` is 16
(`osc.h` line 40).  `OSC_IDENTIFIER` is `"#bundle\0"` (line 41), so that the text for code 2, `"no bundle id ("OSC_IDENTIFIER") found at beginning of
bundle"`, has a zero byte inside, where it ends as a string. -/
def errorString (code : Nat) : Bytes :=
  match code with
  | 0 => n! "no error"
  | 0x1 => n! "OSC bundle was too small (< 16 bytes)"
  | 0x2 => n! "no bundle id (#bundle"
  | 0x4 => n! "OSC message was too small (< 4 bytes)"
  | 0x22 => n! "OSC message size is incorrect; message extends beyond the end of the bundle"
  | 0x8 => n! "malformed OSC address (probably missing an initial '/')"
  | 0x10 => n! "received a NULL pointer where a bundle was expected"
  | 0x11 => n! "out of memory"
  | 0x12 => n! "got a NULL pointer unexpectedly"
  | 0x14 => n! "encountered a discrepancy between a typetag and a piece of data"
  | 0x18 => n! "malformed message"
  | 0x20 => n! "invalid address"
  | 0x101 => n! "function not found"
  | 0x100 => n! "function not found"
  | 0x102 => n! "address is unbound"
  | 0x21 => n! "error parsing expression"
  | 0x1000 => n! "error parsing OSC bundle"
  | 0x104 => n! "invalid arguments for function"
  | 0x108 => n! "error evaluating expression"
  | 0x24 => n! "invalid character found in address"
  | _ => n! "unrecognized error code"

/-- An argument of a function like `printf`. -/
inductive Arg where
  | int (n : Int)
  | str (s : Bytes)

/-- What `vsnprintf` makes of a format, C standard 7.21.6.1; `osc_error.c` line 74, `osc_expr_parser.y` line 293. -/
def format : List Arg → Bytes → Option Bytes
  | _, [] => some []
  | args, 37 :: 37 :: r => (format args r).map (37 :: ·)
  | .int n :: args, 37 :: 100 :: r => (format args r).map (Text.decI n ++ ·)
  | .str s :: args, 37 :: 115 :: r => (format args r).map (s ++ ·)
  | _, 37 :: _ => none
  | args, c :: r => (format args r).map (c :: ·)

/-- `pos += snprintf(pos, (buflen - (pos - buf)), …)` for a text without conversions left, `osc_error.c` lines 56-69: the text in `buf` and `pos - buf`.
The buffer has `MAX_ERR_STRING_LEN`, 4096 bytes.  Once `pos` is behind it, the size is negative, which is a large `size_t`: the bytes are stored outside. -/
def put (b : Bytes × Nat) (piece : Bytes) : Option (Bytes × Nat) :=
  if 4096 < b.2 then none else some (b.1 ++ piece.take (4096 - b.2 - 1), b.2 + piece.length)

/-- The pieces that are put together, `osc_error.c` lines 55-69. -/
def pieces (file func : Option Bytes) (line : Int) (code : Nat) (more : Option Bytes) : List Bytes :=
  (match file with | some s => [s ++ n! ":\n"] | none => []) ++
  (match func with | some s => [s ++ n! "(): "] | none => []) ++
  (if line > 0 then [Text.decI line ++ n! ": "] else []) ++
  (if code ≠ 0 then [errorString code ++ n! ": \n"] else []) ++
  (match more with | some s => [s] | none => [])

/-- `osc_error_handler`, `osc_error.c` lines 39-79: what the installed handler is given, and what is returned.  What has been put together is used
as the format; without pieces the buffer is not initialized. -/
def errorHandler (handler : Option (Bytes → Int)) (file func : Option Bytes) (line : Int) (code : Nat) (more : Option Bytes) (args : List Arg) :
    Option (Option Bytes × Int) :=
  match handler with
  | none => some (none, 0)
  | some h =>
    if (pieces file func line code more).isEmpty then none
    else ((pieces file func line code more).foldlM put ([], 0)).bind fun b =>
      (format args b.1).map fun m => (some (m.take 4095), h (m.take 4095))

/-- `osc_expr_error_formatLocation`, `osc_expr_parser.y` lines 250-270, for `llocp->first_column` and `llocp->last_column`.  In the first case
no terminator is stored, and `junk` is the byte that the allocated memory has in its place: if it is not 0, the end of the string is outside. -/
def formatLocation (junk : UInt8) (first last : Nat) (text : Bytes) : Option Bytes :=
  if text.length ≤ first ∨ text.length ≤ last then (if junk = 0 then some text else none)
  else if last < first then none
  else some (text.take first ++ n! "\n-->                " ++ (text.drop first).take (last - first) ++ n! "\n" ++ text.drop last ++ n! "\n")

/-- `osc_expr_error`, `osc_expr_parser.y` lines 272-326; `file` is `__FILE__`.  `more` has room for 256 bytes. -/
def exprError (handler : Option (Bytes → Int)) (file : Bytes) (junk : UInt8) (first last : Nat) (text : Bytes) (code : Nat) (fmt : Bytes) (args : List Arg) :
    Option (Option Bytes × Int) :=
  (formatLocation junk first last text).bind fun loc =>
  (format args fmt).bind fun m =>
    if loc.length ≠ 0 ∨ m.length ≠ 0 then
      errorHandler handler (some file) none (-1) code
        (some ((if loc.length ≠ 0 then loc ++ n! "\n" else []) ++ (if m.length ≠ 0 then m.take 255 ++ n! "\n" else []))) []
    else errorHandler handler (some file) none (-1) code (some []) []

/-- `yyerror`, `osc_expr_parser.y` lines 387-391, with the text that the parser generated by bison passes. -/
def syntaxError (handler : Option (Bytes → Int)) (file : Bytes) (junk : UInt8) (first last : Nat) (text : Bytes) : Option (Option Bytes × Int) :=
  exprError handler file junk first last text 0x21 (n! "syntax error") []

/-- `osc_expr_parser_reportUnknownFunctionError`, `osc_expr_parser.y` lines 393-404. -/
def unknownFunction (handler : Option (Bytes → Int)) (file : Bytes) (junk : UInt8) (first last : Nat) (text name : Bytes) : Option (Option Bytes × Int) :=
  exprError handler file junk first last text 0x21 (n! "unknown function \"%s\"") [.str name]

/-- `osc_expr_parser_reportInvalidLvalError`, `osc_expr_parser.y` lines 406-417. -/
def invalidLval (handler : Option (Bytes → Int)) (file : Bytes) (junk : UInt8) (first last : Nat) (text lval : Bytes) : Option (Option Bytes × Int) :=
  exprError handler file junk first last text 0x21 (n! "\"%s\" is not a valid target for assignment (invalid lvalue)\n") [.str lval]

end Libo.Err
