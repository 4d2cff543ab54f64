# Formal model of CNMAT/libo — design

## Approach

* Source of truth: the pinned C sources in `/repo`, read as text only.  Nothing in `/repo` is built or run.
* The model is a set of small, total, computable Lean 4 functions over `List UInt8`, `Nat`, `Int`, `BitVec` and `Option`.
  Each definition cites the file and lines it models and says where it simplifies.
* Undefined behaviour (out-of-bounds access, NULL dereference, signed division overflow) is a distinct outcome of the model
  (`none`, written "UB" in comments), never a default value.
* Loops with non-obvious termination (the matcher, the expression evaluator) are modelled with fuel, and termination is a theorem:
  a computable amount of fuel always suffices.
* Properties are stated against small separate specifications (`*Spec.lean` or a `namespace Spec` section) which do not use the
  model's helper functions.  Property theorems live in `Verif/Props/*.lean`; helper lemmas in the model/proof files.
* Where the C code violates the English property, the negation is proved with a concrete witness, and the part which does hold is a
  theorem with suffix `_partial`.

## Trusted base

* The Lean 4.33.0 kernel.  Theorems depend at most on the axioms `propext`, `Classical.choice`, `Quot.sound`
  (checked with `#print axioms`); no axioms of our own, no `sorry`, no `native_decide`, no `bv_decide`.
* The hand translation from C to Lean.  Assumptions of the translation: little-endian host, 8-bit signed `char`, 32-bit `int`, 64-bit
  `long`/`size_t`/pointers, two's complement, arithmetic right shift (the platforms libo supports).
* Memory allocation succeeds.  Allocation and freeing are modelled in the memory model (`Mem*.lean`) only: there a read or write of a
  freed or missing block and a second free are UB, and leaks are visible.  Temporary blocks (serialised buffers, iterators) are not blocks
  of that model.  Elsewhere values are trees and freeing is left out.  The text of error reports is modelled by itself (`ErrorReport`), not where other functions report errors.
* flex and bison: a scanner takes the longest match and of those the first rule, a parser accepts the sentences of its grammar and runs the
  actions of the derivation.  For the ambiguous grammar of expressions bison decides by the precedence declarations; that the model of its
  parser decides alike was compared with LALR(1) tables computed from the grammar on random texts (no difference), not proved.
* Floating point: `float` and `double` are binary32 and binary64 of IEEE 754, every operation rounded once to nearest, ties to even
  (`FLT_EVAL_METHOD` 0, no fused operations).  The operations are modelled (`Fp.lean`) and proved to round correctly (`FpLemmas.lean`, against `FpSpec.lean`); the
  sign and payload of a NaN are not modelled.  Where numbers are only moved they are bit patterns.
* The C library: `printf`, `scanf` and `strptime` as used for time tags behave as in glibc in the C locale, and round correctly between decimal
  and binary.  `sqrt`, `fmod`, `remainder`, `logb`, `floor`, `ceil` and `round` are exact or correctly rounded, as IEEE 754 demands; all other functions of `math.h` are parameters.
* Mathlib (only for the real numbers in `ExprConst`); it adds no axioms.

## Per property

| id | model | proof |
|----|-------|-------|
| C01 | unserialised atoms/messages/bundles as a nested inductive type; serialise to bytes; deserialise from bytes as the C iterators do | round trip by mutual induction |
| C02 | same, plus the NULL-buffer size pass | structural induction |
| C03 | sanity check over bytes | induction over messages |
| C04 | sanity check + iterator state machine over an arbitrary buffer | invariant; `int` overflow witness for the unchecked case |
| C05 | iterator state machine over serialised message lists | induction |
| C06 | message wrap/getArg/cache/iterator | induction over arguments |
| C07 | `osc_util` arithmetic with the 32-bit mask | omega |
| C08 | byte swap macros on bit vectors | bit-level extensionality |
| C09 | 8-byte union word, setters and getters on both forms | case analysis; negation witness for negative int8 |
| C10–C14 | `osc_match` with explicit backtrack stack, indices and guarded reads | refinement to a declarative pattern semantics (pattern AST + inductive match relation); termination by a weight on the stack |
| C15–C16 | byte-level in-place edits | refinement to list edits |
| C17–C19 | loops over messages using `osc_match` | refinement to list/set statements through C12 |
| C20, C21, C27 | heap model (nodes with next/prev), operations as pointer updates | representation invariant, refinement to `List` |
| C22, C23 | flatten/explode on nested bundles | induction on nesting |
| C24, C25 | query/dispatch loops | list induction |
| C26 | bucket array with chains | refinement to a finite map |
| C28 | arrays as byte blocks | direct |
| C29–C31 | 32.32 fixed point; calendar code | omega; negation witnesses |
| C32 | `osc_serial_processByte` as a state machine on 64-bit words | induction over the payload |
| C33 | quoting loops | list induction |
| C34, C35, C36 | expression functions on atom lists | list induction, bit-vector arithmetic |
| C37, C38, C39 | evaluator with fuel | structural |
| C40 | type tag table | finite, kernel-checked over the full table |
| C41 | rename of a serialised message | byte lists |
| C42, C51 | memory model: blocks of bundles, messages, atoms and atom arrays; ownership layout of a value | separation: a value owns a set of blocks, operations from a copy touch only its own |
| C22, C23, C52 | flatten and explode in the memory model, next to a specification on values | refinement to the specification, with frame and leak conditions |
| C43 | `osc_serial_processByte` on arbitrary bytes | invariant of the state machine |
| C44–C46 | list assignment, comparison, increment of the expression language | list induction, bit arithmetic |
| C47–C50 | address lookup, bundle queries, delete, time tag functions of the expression language | refinement through C12, C15, C18 |
| C53–C55 | scanner (regular expressions by derivatives, longest match), parser (recursive descent), formatter (writers into a buffer) | token lemmas for each rule, mutual induction over values; soundness and completeness against the grammar |
| C56–C58 | string, cast, bit and byte order functions of the expression language, with the blocks of strings and blobs and the capacity of buffers | loops filling an array (`forN_set`), specifications on texts, integers and bits; witnesses of writes past the end |
| C59 | parser of expressions as recursive descent with levels | induction over the calls (what is found is a tree with these tokens that respects the levels) and over trees (every such tree is found) |
| C60 | actions of the parser as a function from syntax trees to expressions, table of functions | case distinction; induction over the arguments of lambda expressions |
| C61 | composition of parser, actions, evaluator, functions and bundle operations (C33-C38, C45, C46, C59, C60) | refinement: simulation by induction over syntax trees; the bundle in memory represents a list of bindings, environments in memory represent lists of variables, memory only grows |
| C62 | scanner of expressions by regular expressions | one lemma for each kind of token (derivatives of the rules, bytes that may continue a match), induction over the text |
| C63, C64 | `double`s as NaN, infinities and integers in units of 2^-1074; operators on them | the rounded quotient is the nearest number of the grid, ties to even; error bounds for time tags by enclosing grid points |
| C65 | loops over the elements of a list that keep a best one or transform each | invariant of the loop (`forN_inv`), a relation for each element (`forN_each`) |
| C66 | loops that fold the numbers of all arguments | the result of the loop is a left fold (`forN_fold`, `foldAll_spec`), a relation for rounded sums, exactness for integers |
| C67 | functions applied to every element or pair | exact whole parts in units of 2^-1074, `forN_each`, `C35_doubles` |
| C68 | floor of a rounded quotient; a loop that adds a step | a rounded quotient of integers stays strictly between two whole numbers (`round_between`), invariant of the loop |
| C69 | comparison functions handed to `qsort` | the comparison follows a total order of keys, so the contract of `qsort` applies; negation for equal numbers |
| C70 | Gaussian elimination with row exchanges on rounded numbers | exactness from C63 for small whole numbers; for triangular matrices in any row order an invariant of the elimination (the rows left are a permutation of the rest of the triangle, with its parity) |
| C71 | arithmetic in ten C types, with promotion and overflow | a loop invariant over an arbitrary arithmetic (get, add, put), instantiated for every type; congruences modulo two to the width |
| C72 | recursive hull on rounded distances | exactness of the distances for whole numbers; a measure for the recursion; every direction has a returned point that is farthest |
| C73, C74, C75 | functions that combine messages, the matcher and the text of dates | composition with C01, C02, C11, C13, C14, C31, C67; induction over the argument lists |
| C76, C77, C78 | functions of the C library as parameters, `sqrt`, `remainder`, `logb` exactly, constants as bit patterns | exact arithmetic in units of 2^-1074; enclosures of real numbers with Mathlib |
| C79, C80 | bundles as values: serialise, read or assign in the block, deserialise | composition of C01, C12, C37, C47; messages in memory carry a list of messages with values |
| C81 | evaluation of a parsed text inside the evaluator; the parser is part of the table of functions | C61 and C62 in a state with further expressions |
| C82 | a second set of formatting functions, over the bytes of the wire format | the text specification of C54 and the wire format of C01; equal blocks for both forms |
| C83 | the loops of union and intersection over the memory model, with matching and deep copies | lists of values: the first message of each address; blocks outside the destination unchanged |
| C84 | reading the bytes into memory, flattening or exploding there, writing and freeing | the wire format of C01, the lists of C22 and C52; all blocks but the result as before |
| C85 | steps that write at a place of a block of known size, over the tree of an expression | the text in parentheses, and a reader of nested lists |
| C86, C87 | blocks of expressions, arguments, records, names and atoms that point to each other | trees, and the relation that says which blocks hold a tree |
| C88–C91 | negation, typed arrays, the joined text, sizes and copies of atoms of both forms, the header of a bundle; memory as bytes with `none` for accesses outside a block | integers with their type, lists of values, the bytes of the wire format written out |
| C92, C93 | lookup of a message by pattern, reading its values, storing elements, replacing the bytes of the message in the block | the wire format of C01, lists of values with writes at positions |
| C94 | the loops over the text printed by `%a` | least power of ten that makes the number whole |
| C95 | hash table with keys as blocks of a heap, table of entries | list of names with methods and contexts |
| C96 | messages and atoms in memory (`MemMake`, `MemAtom`), setters on new atoms, three ways to link an atom in | list with an element put in; ownership of blocks (`Own`) |
| C97 | copies of atoms and messages put into containers in memory | lists of values joined; ownership of blocks |
| C98 | time tags from the system clock | fixed-point time in units of 10⁻⁶·2⁻³² s; days of the calendar |
| C99 | quotes, padded lengths, strings and time tags stored into arguments | lists of bytes; the reader of quoted strings of C33 |
| C100 | scaling lists of numbers | steps rounded as in IEEE 754 (`FpSpec.lean`); the line through the ends for integers |
| C101 | reports of errors | texts as lists of segments; expressions as before, at and behind the error |
| C102 | sets of results in memory: links, iterator, freeing | selectors in the order of first use; what was added for each |
| C103 | making records of functions | record with the copies it owns, blocks of C86; memory as before after freeing |
| C104 | handles of serialized bundles and messages | which blocks are new, what they hold, memory as before after freeing |
| C105 | documentation of functions | questions with their addresses and answers; names of kinds by bits |
| C106 | index of functions, list of compiled functions | pairs of functions and categories with their addresses; lines one behind the other |

## Files

| model | C files | specification | properties |
|-------|---------|---------------|------------|
| `Basic`, `ByteOrder`, `Timetag` | `osc_util.c`, `osc_byteorder.h`, `osc_timetag.c` | `CalSpec` | `Wire`, `Timetag` |
| `TimeFp`, `IsoText`, `Printf` | `osc_timetag.c` (numbers and texts) | `CalSpec`, in the property files | `TimeSeconds`, `IsoText`, `IsoDates` |
| `AtomS`, `AtomU`, `Typetag` | `osc_atom_s.c`, `osc_atom_u.c`, `osc_typetag.c` | `ValSpec`, `TagSpec` | `Atoms`, `Typetag` |
| `MsgS`, `BundleS`, `BundleSOps` | `osc_message_s.c`, `osc_bundle_s.c`, iterators | `MsgSpec`, `BundleSpec` | `MsgS`, `BundleS` |
| `Values`, `Decode`, `DecodeVal` | `osc_message_u.c`, `osc_bundle_u.c`, `osc_bundle_s.c` (serialise, deserialise) | `ValueSpec` | `RoundTrip` |
| `MsgArgs`, `BundleU`, `DLL` | `osc_message_u.c`, `osc_bundle_u.c` (argument and message lists) | lists | `MsgArgs`, `BundleU` |
| `Mem*` | `osc_atom_u.c`, `osc_message_u.c`, `osc_bundle_u.c`, `osc_atom_array_u.c` | `FlatSpec`, `ExplodeSpec` | `Copy`, `Flatten`, `Explode`, `SetsU`, `FlattenS` |
| `Match*` | `osc_match.c` | `PatSpec` | `Match` |
| `Query` | `osc_query.c`, `osc_dispatch.c`, `osc_rset.c`, `osc_vtable.c` | in `Props/Query` | `Query` |
| `RSetMem` | `osc_rset.c` with results as blocks | in `Props/RSetMem` | `RSetMem` |
| `ExprRec` | `osc_expr_rec.c`: making records | `Props/ExprHeap` | `ExprRec` |
| `SHandle` | `osc_bundle_s.c`, `osc_message_s.c`: handles | in `Props/SHandle` | `SHandle` |
| `ExprDoc` | `osc_expr.c`: documentation of functions | in `Props/ExprDoc` | `ExprDoc` |
| `ExprIndex` | `osc_expr.c`: index of functions and of categories, text about compiled functions | in `Props/ExprIndex` | `ExprIndex` |
| `VTabMem` | `osc_vtable.c`, `osc_hashtab.c` with strings as blocks | in `Props/VTabMem` | `VTabMem` |
| `Precision` | `osc_strfmt_precision` | in `Props/Precision` | `Precision` |
| `Hashtab`, `LinkedList`, `OscArray` | `osc_hashtab.c`, `osc_linkedlist.c`, `osc_array.c`, `osc_atom_array_u.c` | maps, lists | same names |
| `Serial` | `osc_serial.c` | in `Props/Serial` | `Serial` |
| `StrFmt`, `TextFmt`, `TextFmtS`, `TextScan`, `TextIso`, `TextParse`, `Regex` | `osc_strfmt.c`, `osc_scanner.l`, `osc_parser.y`, format functions | `TextSpec` | `StrFmt`, `Text`, `TextS` |
| `Expr*` | `osc_expr.c`, `osc_expr_rec.c` | `ExprSpec` | `Expr*` |
| `Fp` | `double` and `float` of C | `FpSpec` | `ExprFloat`, `TimeSeconds` (lemmas in `FpLemmas`) |
| `ExprNum` | `osc_expr.c` (numerical functions) | in the property files, on `FpSpec` | `ExprOrder`, `ExprSums`, `ExprRound`, `ExprMod` |
| `ExprSort` | `osc_expr.c` (`sort`, `sortidx`, `median`); `qsort` is a parameter | in the property file, on `FpSpec` | `ExprSort` |
| `ExprMat` | `osc_expr.c` (`cumsum`, `cross`, `det` with `LUPDecompose`, `LUPDeterminant`), `osc_atom_u.c` (`getFloat`) | in the property files, on `FpSpec` | `ExprDet`, `ExprCum` |
| `AtomOps` | `osc_atom_u.c`, `osc_atom_s.c`, `osc_atom_array_u.c`, `osc_atom_array_s.c`, `osc_bundle_s.c` (negation, arrays, sizes, copies, header) | in the property file | `AtomOps` |
| `ErrorReport` | `osc_error.c`, `osc_expr_parser.y` (reports) | in the property file | `ErrorReport` |
| `ExprHull` | `osc_expr.c` (`quickhull`) | in the property file | `ExprHull` |
| `ExprMisc` | `osc_expr.c` (`readstring`, `strtotime`, `floattotime`, `match`, `bundle`) | in the property file | `ExprMisc` |
| `ExprMath` | `osc_expr.c`, `osc_expr_func.h` (functions of `math.h`, `l2norm`, `mtof`, `ftom`, the constants) | in the property files; real numbers of Mathlib for the constants | `ExprRoots`, `ExprLib`, `ExprConst` |
| `ExprParse` | `osc_expr_parser.y` (grammar) | `ExprSyntax` | `ExprParse` |
| `ExprTable`, `ExprBuild` | `osc_expr_func.h`, `osc_expr_parser.y` (actions) | in the property file | `ExprBuild`, `ExprNames` |
| `ExprScan`, `ExprText` | `osc_expr_scanner.l` | `ExprScanSpec` | `ExprScan` (lemmas in `ExprScanLemmas`, `ExprScanTokens`, `ExprScanWords`) |
| (all of the above) | `osc_expr.c`, `osc_expr_parser.y` end to end | `ExprSem`, `ExprSemNum` | `ExprSem` (lemmas in `ExprSemRep`, `ExprSemLemmas`, `ExprSemFp`, `ExprSemFuns`, `ExprSemNums`, `ExprSemTexts`, `ExprSemMore`, `ExprSemTable`) |

## Not modelled

* The values of the functions of `math.h` except `fabs`, `floor`, `ceil`, `round`, `fmod`, `sqrt`, `remainder`, `logb` and `ilogb` (they are parameters, as every C library may
  compute them), the text of floating point numbers (`%g`, `strtod` are parameters), locale and time-zone calls, threads
  (`OSC_ATOMIC`), memory allocation failure, SWIG/Python bindings.
* `osc_legacy_parser.y`, `osc_expr_u.c`, `tokenize` and the names `lambda`, `??` in the table (the parser handles them itself), `nextafter`.
* The functions generated by flex and bison (see the trusted base).
