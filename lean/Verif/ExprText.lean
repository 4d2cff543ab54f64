import Verif.ExprScan
import Verif.ExprBuild
/-!
# Evaluation of a text
-/

namespace Libo.Expr
open Libo

/-- `osc_expr_parser_parseExpr` (`osc_expr_parser.y` lines 162-209) followed by the evaluation of what it returns: the text is a C string; the
parser asks the scanner for one token after the other, and the scanner does not depend on the parser. -/
def evalText (E : Text.Env) (P : Text.Printf) (n : Nat) (b : Option (Int × Option Bytes)) (s : Bytes) : Option (Option (St × Int × Ar)) :=
  (Syn.tokens E s).bind (evalToks E P n b)

end Libo.Expr
