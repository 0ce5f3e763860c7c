/-!
# Reading a file: src/common/cs_file.c
-/

namespace Mjs.ReadFile

/-- What the C library and the operating system answer: whether `fopen` and `fseek` succeed, what `ftell` returns, whether `malloc` gives a block of a size, and the bytes that can be read
from the start of the file when it comes to that. -/
structure Answers where
  opens : Bool
  seeks : Bool
  tell : Int
  gives : Nat → Bool
  bytes : List UInt8

/-- What is left behind: the block returned (with what is stored in it), how many files are open, and how many blocks are allocated. -/
structure Left where
  data : Option (List UInt8)
  files : Nat
  blocks : Nat
deriving DecidableEq

/-- `cs_read_file`, cs_file.c:30-51; `none`: bytes behind the block are written.  `size_t` has 64 bits. -/
def readFile (a : Answers) : Option Left :=
  if !a.opens then some ⟨none, 0, 0⟩
  else if !a.seeks then some ⟨none, 0, 0⟩                              -- line 36: fclose
  else
    let size := (a.tell % 2 ^ 64).toNat                                -- line 38
    let block := (size + 1) % 2 ^ 64
    if a.gives block then
      let got := a.bytes.take size                                     -- line 42
      if block < got.length then none
      else if got.length ≠ size then some ⟨none, 1, 0⟩                 -- lines 43-44: free, but no fclose
      else if block ≤ size then none                                   -- line 46
      else some ⟨some (got ++ [0]), 0, 1⟩
    else some ⟨none, 0, 0⟩

end Mjs.ReadFile
