/-!
# The order of the lanes in the vectorised permutation

Lane (0, 0), the rest of row 0, the rest of column 0 with y = 2, 4, 1, 3, and four groups of four lanes, one for each
`x` from 1 to 4.  The functions of `KeccakP-1600-AVX2.s` that read and write bytes of the state use this order.
-/
namespace LESS.Spec

/-- The coordinates (x, y) of the lanes, in the order in which they are stored. -/
def avx2Lanes : List (Fin 5 × Fin 5) :=
  [(0, 0), (1, 0), (2, 0), (3, 0), (4, 0), (0, 2), (0, 4), (0, 1), (0, 3),
   (1, 3), (2, 1), (3, 4), (4, 2), (1, 2), (2, 4), (3, 1), (4, 3), (1, 4), (2, 3), (3, 2), (4, 1), (1, 1), (2, 2), (3, 3), (4, 4)]

/-- Where lane (x, y) is stored. -/
def avx2Pos (x y : Fin 5) : Nat := avx2Lanes.idxOf (x, y)

end LESS.Spec
