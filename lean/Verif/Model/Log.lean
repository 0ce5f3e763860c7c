import Verif.Model.Glob

/-!
# Which messages are logged, and the prefix of their lines: src/common/cs_dbg.c

`CS_LOG_ENABLE_TS_DIFF` is 0; writing to the log file and `cs_log_printf` are not modelled.
-/

namespace Mjs.Log

/-- `CS_LOG_PREFIX_LEN`, cs_dbg.h:32. -/
def width : Nat := 24

/-- The loop of cs_dbg.c:65-72: the name of the file from `p` on, `fl` bytes. -/
def base (file : List UInt8) : List UInt8 := (file.reverse.takeWhile fun c => !(c == 47 || c == 92)).reverse

/-- `ll`, cs_dbg.c:74. -/
def lineLen (ln : Int) : Nat := if ln < 10000 then (if ln < 1000 then (if ln < 100 then (if ln < 10 then 1 else 2) else 3) else 4) else 5

/-- The loop of cs_dbg.c:81-84, with `q` as an index; `none`: a byte before the prefix is written.  An `int` has at most 10 digits. -/
def writeLine : Nat → List UInt8 → Nat → Int → Option (List UInt8 × Nat)
  | 0, _, _, _ => none
  | fuel + 1, buf, q, ln =>
    if q = 0 then none
    else
      let buf := buf.set (q - 1) (UInt8.ofNat (48 + ln.tmod 10).toNat)
      if ln.tdiv 10 > 0 then writeLine fuel buf (q - 1) (ln.tdiv 10) else some (buf, q - 1)

/-- cs_dbg.c:65-85: the prefix and `pl`.  `junk` is what the array holds before. -/
def pref (junk file : List UInt8) (ln : Int) : Option (List UInt8 × Nat) :=
  let ll := lineLen ln
  let fl := if (base file).length > width - ll - 2 then width - ll - 2 else (base file).length
  let pl := fl + 1 + ll
  let buf := (base file).take fl ++ (junk.drop fl).take (pl - fl) ++ List.replicate (width - pl) 32
  (writeLine 10 buf pl ln).bind fun r => if r.2 = 0 then none else some (r.1.set (r.2 - 1) 58, pl)

/-- The loop over the levels of files, cs_dbg.c:91-96; a `char` is signed.  `fuel` is above the length of the list. -/
def levelFor (ps : List UInt8) (cur : Int) : Nat → List UInt8 → Option Int
  | 0, _ => none
  | fuel + 1, list =>
    match Glob.next list with
    | none => some cur
    | some e =>
      match e.eq with
      | some (c :: _) => if MgStr.startsWith ps e.val then some (c.toBitVec.toInt - 48) else levelFor ps cur fuel e.rest
      | _ => levelFor ps cur fuel e.rest

/-- `cs_log_print_prefix`, cs_dbg.c:58-111: what is written, inner `none` if nothing is (the result is 0); `cur` is `cs_log_level`, `files` is `s_file_level`. -/
def prefixFor (junk : List UInt8) (cur : Int) (files : Option (List UInt8)) (level : Int) (file : List UInt8) (ln : Int) : Option (Option (List UInt8)) :=
  if level > cur ∧ files = none then some none
  else (pref junk file ln).bind fun p =>
    match files with
    | none => some (some p.1)
    | some s => (levelFor (p.1.take p.2) cur (s.length + 1) s).map fun pll => if level > pll then none else some p.1

end Mjs.Log
