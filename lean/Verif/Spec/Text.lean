/-!
# ASCII text as bytes
-/

namespace Mjs.Spec

/-- The bytes of an ASCII text. -/
def ascii (s : String) : List UInt8 := s.toList.map fun c => UInt8.ofNat c.toNat

end Mjs.Spec
