/-! # Specification vocabulary for the CRC of several frames at once -/

namespace Verif.CRC

/-- Frame `l` of `n` interleaved frames of `len` elements: element `k` of the frame is element `n * k + l` of the vector. -/
def lane (n len l : Nat) (v : List Int) : List Int := (List.range len).map fun k => v.getD (n * k + l) 0

/-- Frame `l` of frames of `len` elements stored one after the other. -/
def frame (len l : Nat) (v : List Int) : List Int := (v.drop (l * len)).take len

end Verif.CRC
