/-! # Memory as a string of bits -/
namespace Verif.Spec

/-- Bit `j` of a byte string: bit `j mod 8` of byte `j / 8`, least significant first (the layout of
bit-fields on little-endian targets). -/
def memBit (mem : List (BitVec 8)) (j : Nat) : Bool := (mem.getD (j / 8) 0#8).getLsbD (j % 8)

end Verif.Spec
