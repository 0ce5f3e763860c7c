/-!
# Model of the built-in formatter: `c_itoa`, `c_vsnprintf` (`src/common/str_util.c`)

The format is the list of its characters without the final NUL; arguments are a list.  The target is a block of memory
`mem`; a write outside of it, a read outside of a string argument and a missing or wrong argument are `none`.
`buf_size` is below 2^31, as the code converts it to `int`.
-/

namespace Mjs.Printf

/-- `C_SNPRINTF_APPEND_CHAR`, str_util.c:40-44, with the target `buf = mem + off` and the limit `(int) buf_size`. -/
def putChar (off : Nat) (limit : Int) (st : List UInt8 × Nat) (ch : UInt8) : Option (List UInt8 × Nat) :=
  if (st.2 : Int) < limit then
    if off + st.2 < st.1.length then some (st.1.set (off + st.2) ch, st.2 + 1) else none
  else some (st.1, st.2 + 1)

/-- The digits of lines 63-72, least significant first. -/
def digitsRev (num base : Nat) (h : 2 ≤ base) : List UInt8 :=
  let rem := num % base
  let c : UInt8 := if rem < 10 then UInt8.ofNat (48 + rem) else UInt8.ofNat (97 + (rem - 10))
  if _hn : num / base > 0 then c :: digitsRev (num / base) base h else [c]
termination_by num
decreasing_by exact Nat.div_lt_self (Nat.pos_of_div_pos _hn) h

/-- `c_itoa`, str_util.c:52-91: what is in `tmp` when the output loop begins; `none` if `tmp[40]` overflows or the
negation of line 59 does. -/
def itoaTmp (num : Int) (base : Nat) (hb : 2 ≤ base) (zero : Bool) (width : Int) : Option (List UInt8) :=
  if num = -2 ^ 63 then none                                          -- line 59
  else
    let ds := digitsRev num.natAbs base hb
    let ds := if zero then ds ++ List.replicate (min width 39 - ds.length).toNat 48 else ds   -- lines 75-79
    let ds := if num < 0 then ds ++ [45] else ds                      -- lines 82-84
    if ds.length ≤ 40 then some ds else none

/-- `c_itoa`, str_util.c:52-91, called with `buf + i` and `buf_size - i`. -/
def itoa (mem : List UInt8) (off : Nat) (limit : Int) (num : Int) (base : Nat) (hb : 2 ≤ base) (zero : Bool) (width : Int) :
    Option (List UInt8 × Nat) :=
  (itoaTmp num base hb zero width).bind fun tmp => tmp.reverse.foldlM (putChar off limit) (mem, 0)

/-- A variable argument: an integer of any type, or a pointer to readable bytes (or NULL). -/
inductive Arg where
  | int (n : Int)
  | str (s : Option (List UInt8))

/-- `c_strnlen`, str_util.c:31-36, from index `l` on. -/
def strnlen (s : List UInt8) (l maxlen : Nat) : Option Nat :=
  if l < maxlen then (s[l]?).bind fun c => if c ≠ 0 then strnlen s (l + 1) maxlen else some l else some l
termination_by maxlen - l

/-- The characters the loop of lines 171-173 appends, from index `j` on. -/
def strChars (s : List UInt8) (j : Nat) (precision : Int) : Option (List UInt8) :=
  if precision ≤ 0 ∨ (j : Int) < precision then
    match _h : s[j]? with
    | none => none
    | some c => if c ≠ 0 then (strChars s (j + 1) precision).map (c :: ·) else some []
  else some []
termination_by s.length - j
decreasing_by have := (List.getElem?_eq_some_iff.1 _h).1; omega

/-- A parsed conversion specification. -/
structure Conv where
  zero : Bool
  width : Int
  precision : Int
  lenMod : UInt8
  ch : UInt8

/-- Decimal digits in the format: their value (`int` overflow is not modelled) and the rest, lines 114-117, 131-134. -/
def number (acc : Nat) : List UInt8 → Nat × List UInt8
  | c :: fmt => if 48 ≤ c ∧ c ≤ 57 then number (acc * 10 + (c.toNat - 48)) fmt else (acc, c :: fmt)
  | [] => (acc, [])

/-- An argument of type `int` for `*`. -/
def intArg : List Arg → Option (Int × List Arg)
  | .int n :: args => some (n, args)
  | _ => none

/-- `if (*fmt == '*') ...`, lines 118-122 and 128-130: the value and whether it was there. -/
def star (n : Int) : List UInt8 → List Arg → Option (Int × List UInt8 × List Arg)
  | [], args => some (n, [], args)
  | c :: fmt, args => if c = 42 then (intArg args).map fun r => (r.1, fmt, r.2) else some (n, c :: fmt, args)

/-- The field width, lines 108-122. -/
def parseWidth (fmt : List UInt8) (args : List Arg) : Option (Int × List UInt8 × List Arg) :=
  star (number 0 fmt).1 (number 0 fmt).2 args

/-- The precision, lines 125-136. -/
def parsePrecision (fmt : List UInt8) (args : List Arg) : Option (Int × List UInt8 × List Arg) :=
  match fmt with
  | [] => some (0, [], args)
  | c :: fmt =>
    if c = 46 then                                                     -- '.'
      if fmt.head? = some 42 then star 0 fmt args
      else some ((number 0 fmt).1, (number 0 fmt).2, args)
    else some (0, c :: fmt, args)

/-- `if (*fmt == 'h') { len_mod = 'H'; fmt++; }`, lines 149-152. -/
def lenH (m : UInt8) : List UInt8 → UInt8 × List UInt8
  | [] => (m, [])
  | c :: f => if c = 104 then (72, f) else (m, c :: f)

/-- `if (*fmt == 'l') { len_mod = 'q'; fmt++; }`, lines 153-156. -/
def lenL (m : UInt8) : List UInt8 → UInt8 × List UInt8
  | [] => (m, [])
  | c :: f => if c = 108 then (113, f) else (m, c :: f)

/-- The length modifier, lines 139-159. -/
def parseLenMod : List UInt8 → UInt8 × List UInt8
  | [] => (0, [])
  | c :: fmt =>
    if c = 104 ∨ c = 108 ∨ c = 76 ∨ c = 73 ∨ c = 113 ∨ c = 106 ∨ c = 122 ∨ c = 116 then   -- h l L I q j z t
      let r := lenH c fmt
      lenL r.1 r.2
    else (0, c :: fmt)

/-- A conversion specification after `%`, lines 104-161. -/
def parseConv (fmt : List UInt8) (args : List Arg) : Option (Conv × List UInt8 × List Arg) := do
  let zero := fmt.head? == some 48
  let w ← parseWidth fmt args
  let p ← parsePrecision w.2.1 w.2.2
  let m := parseLenMod p.2.1
  match m.2 with
  | [] => none                                                         -- the NUL is taken for a specifier: abort()
  | ch :: fmt' => some (⟨zero, w.1, p.1, m.1, ch⟩, fmt', p.2.2)

/-- The text of a `%s`, lines 162-174: padding and characters. -/
def strText (c : Conv) (s : Option (List UInt8)) : Option (List UInt8) := do
  let l ← if c.precision > 0 then s.bind fun s => strnlen s 0 c.precision.toNat else some 0
  let body ← match s with | none => some [] | some s => strChars s 0 c.precision
  some (List.replicate (c.width - l).toNat 32 ++ body)

/-- The value of an argument converted to the type the specifier fetches and then to `int64_t`: lines 178-203.
`int` and `unsigned` are 32 bits, all others 64. -/
def fetched (c : Conv) (n : Int) : Option (Int × Nat) :=
  if c.ch = 100 then                                                   -- 'd'
    if c.lenMod = 0 then some ((BitVec.ofInt 32 n).toInt, 10)
    else if c.lenMod = 108 ∨ c.lenMod = 122 ∨ c.lenMod = 113 then some ((BitVec.ofInt 64 n).toInt, 10)   -- l z q
    else none
  else if c.ch = 120 ∨ c.ch = 117 then                                 -- 'x' 'u'
    let base := if c.ch = 120 then 16 else 10
    if c.lenMod = 0 then some (((BitVec.ofInt 32 n).toNat : Int), base)
    else if c.lenMod = 108 ∨ c.lenMod = 122 then some ((BitVec.ofInt 64 n).toInt, base)
    else none
  else none

/-- One conversion: appends to the output, lines 162-212; `none` also for the `abort()` of line 210. -/
def convert (bufSize : Nat) (c : Conv) (st : List UInt8 × Nat) : Arg → Option (List UInt8 × Nat)
  | .str s =>
    if c.ch = 115 then (strText c s).bind fun t => t.foldlM (putChar 0 bufSize) st else none
  | .int n =>
    if c.ch = 99 then putChar 0 bufSize st (UInt8.ofNat ((n % 256).toNat))      -- 'c'
    else if c.ch = 112 then                                                     -- 'p'
      (putChar 0 bufSize st 48).bind fun st1 => (putChar 0 bufSize st1 120).bind fun st2 =>
        (itoa st2.1 st2.2 ((bufSize : Int) - st2.2) ((BitVec.ofInt 64 n).toInt) 16 (by decide) c.zero 0).map
          fun r => (r.1, st2.2 + r.2)
    else
      (fetched c n).bind fun (v, base) =>
        if hb : 2 ≤ base then
          (itoa st.1 st.2 ((bufSize : Int) - st.2) v base hb c.zero c.width).map fun r => (r.1, st.2 + r.2)
        else none

theorem number_length (fmt : List UInt8) (acc : Nat) : (number acc fmt).2.length ≤ fmt.length := by
  induction fmt generalizing acc with
  | nil => simp [number]
  | cons c fmt ih =>
    unfold number
    split
    · have := ih (acc * 10 + (c.toNat - 48)); simp only [List.length_cons]; omega
    · simp

theorem star_length {n fmt args w fmt' args'} (h : star n fmt args = some (w, fmt', args')) :
    fmt'.length ≤ fmt.length := by
  cases fmt with
  | nil => cases h; exact Nat.le_refl _
  | cons c f =>
    simp only [star] at h
    split at h
    · rw [Option.map_eq_some_iff] at h
      obtain ⟨r, _, h⟩ := h
      cases h; simp
    · cases h; exact Nat.le_refl _

theorem parseWidth_length {fmt args w fmt' args'} (h : parseWidth fmt args = some (w, fmt', args')) :
    fmt'.length ≤ fmt.length := by
  have h1 := number_length fmt 0
  have h2 := star_length h
  omega

theorem parsePrecision_length {fmt args w fmt' args'} (h : parsePrecision fmt args = some (w, fmt', args')) :
    fmt'.length ≤ fmt.length := by
  cases fmt with
  | nil => cases h; exact Nat.le_refl _
  | cons c f =>
    unfold parsePrecision at h
    have h1 := number_length f 0
    simp only at h
    split at h
    · split at h
      · have h2 := star_length h; simp only [List.length_cons]; omega
      · cases h; simp only [List.length_cons]; omega
    · cases h; exact Nat.le_refl _

theorem lenH_length (m : UInt8) (f : List UInt8) : (lenH m f).2.length ≤ f.length := by
  cases f with
  | nil => simp [lenH]
  | cons c f => simp only [lenH]; split <;> simp

theorem lenL_length (m : UInt8) (f : List UInt8) : (lenL m f).2.length ≤ f.length := by
  cases f with
  | nil => simp [lenL]
  | cons c f => simp only [lenL]; split <;> simp

theorem parseLenMod_length (fmt : List UInt8) : (parseLenMod fmt).2.length ≤ fmt.length := by
  cases fmt with
  | nil => simp [parseLenMod]
  | cons c f =>
    simp only [parseLenMod]
    split
    · have h1 := lenH_length c f
      have h2 := lenL_length (lenH c f).1 (lenH c f).2
      simp only [List.length_cons]; omega
    · simp

theorem parseConv_length {fmt args c fmt' args'} (h : parseConv fmt args = some (c, fmt', args')) :
    fmt'.length < fmt.length := by
  unfold parseConv at h
  simp only [Option.bind_eq_bind, Option.bind_eq_some_iff] at h
  obtain ⟨⟨w, f1, a1⟩, h1, ⟨p, f2, a2⟩, h2, h3⟩ := h
  have l1 := parseWidth_length h1
  simp only at h2
  have l2 := parsePrecision_length h2
  have l3 := parseLenMod_length f2
  simp only at h3
  split at h3
  · cases h3
  · rename_i e
    cases h3
    rw [e] at l3
    simp only [List.length_cons] at l3
    omega

/-- The main loop of `c_vsnprintf`, lines 97-214. -/
def loop (bufSize : Nat) (fmt : List UInt8) (args : List Arg) (st : List UInt8 × Nat) : Option (List UInt8 × Nat) :=
  match fmt with
  | [] => some st
  | ch :: fmt =>
    if ch ≠ 37 then (putChar 0 bufSize st ch).bind fun st' => loop bufSize fmt args st'
    else
      match _h : parseConv fmt args with
      | none => none
      | some (c, fmt', args') =>
        match args' with
        | [] => none
        | a :: args'' => (convert bufSize c st a).bind fun st' => loop bufSize fmt' args'' st'
termination_by fmt.length
decreasing_by
  · simp
  · have := parseConv_length _h; simp only [List.length_cons]; omega

/-- `c_vsnprintf` (and `c_snprintf`), str_util.c:94-228: the memory afterwards and the return value. -/
def vsnprintf (mem : List UInt8) (bufSize : Nat) (fmt : List UInt8) (args : List Arg) : Option (List UInt8 × Nat) :=
  (loop bufSize fmt args (mem, 0)).bind fun (mem, i) =>
    if bufSize > 0 then                                                -- lines 217-219
      let k := if i < bufSize then i else bufSize - 1
      if k < mem.length then some (mem.set k 0, i) else none
    else some (mem, i)

end Mjs.Printf
