import Verif.Props.ParseEnds

/-!
# C31: what the bound on operators comes from

In a file of its own because the kernel needs several gigabytes for the evaluation; it imports another such file so that the two
are not checked at the same time.
-/

namespace Mjs.Props
open Mjs Mjs.Str Mjs.Obj Mjs.Core Mjs.Code Mjs.Sem Mjs.Exec Mjs.Tok Mjs.Grammar Mjs.Parse Mjs.Parser

/-- `1+1+…+1;` with `n` operators. -/
def ones (n : Nat) : List UInt8 := (List.replicate n (txt "1+")).flatten ++ txt "1;"

/-- **C31, negation.** The sum of 512 ones is a syntax error, however large the C stack is: the parser counts each operator as a
nesting level. -/
theorem C31_long_chain_rejected (d : Nat) (hd : 600 ≤ d) : parseScript numEnv d [] (ones 511) = .error :=
  rejected (by decide +kernel) hd

end Mjs.Props
