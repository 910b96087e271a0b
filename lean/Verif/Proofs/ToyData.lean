import Verif.Props.Toy
import Verif.Props.Codes
import Verif.Proofs.KatRng
import Verif.Model.Sign
/-!
# One complete run of the scheme with the small parameter set

Key generation and signing, evaluated by the kernel step by step.  The literals were computed by running the model.  The seed and
the message are those of the first request of the test-vector program, with the small cipher `toyAes`.
-/
namespace LESS
namespace ToyRun

/-- `x` returns `a`. -/
def returns {α : Type} [DecidableEq α] (x : C α) (a : α) : Bool := match x with | .ok b => decide (b = a) | .error _ => false

theorem of_returns {α : Type} [DecidableEq α] {x : C α} {a : α} (h : returns x a = true) : x = .ok a := by
  unfold returns at h
  split at h
  · rw [of_decide_eq_true h]
  · cases h

deriving instance DecidableEq for Inc, MonoAction, Monomial

/-- Contents of uninitialised memory. -/
def stale : Stale toy := ⟨⟨.replicate _ 99, .replicate _ 99⟩, ⟨.replicate _ 99, .replicate _ 99⟩, .replicate _ (.replicate _ 99),
  ⟨.replicate _ (.replicate _ 99), .replicate _ 99⟩, .replicate _ (.replicate _ 99), ⟨.replicate _ 99, .replicate _ 99⟩,
  ⟨.replicate _ 99, .replicate _ 99⟩, .replicate _ (.replicate _ 99)⟩

/-- The loop of `prepareDigestInput` over the columns. -/
def columnLoop (V : NormIS toy) (Qbar : MonoAction toy) (Qin : Monomial toy) (Gd : GenMat toy) (isPivot : Vector Nat toy.N) :
    C (NormIS toy × MonoAction toy × Nat × Nat) :=
  forUp toy.N (fun col (s : NormIS toy × MonoAction toy × Nat × Nat) => do
    let (V, Qbar, pivIdx, nonPivIdx) := s
    let (rowIdx, val) ← findSource Qin col
    let f ← rd isPivot col
    if f = 0 then do
      let V ← lexMinimize V ((nonPivIdx + toy.posMod - toy.K) % toy.posMod) Gd col
      pure (V, Qbar, pivIdx, (nonPivIdx + 1) % toy.posMod)
    else do
      let perm ← wr Qbar.permutation pivIdx rowIdx
      let coefs ← wr Qbar.coefficients pivIdx (u8 val)
      pure (V, ⟨coefs, perm⟩, (pivIdx + 1) % toy.posMod, nonPivIdx)) (V, Qbar, 0, toy.K)

/-- The sort is given by its specification. -/
theorem prepare_eq {V : NormIS toy} {Qbar : MonoAction toy} {G : GenMat toy} {Q : Monomial toy} {U R : NormIS toy}
    {Gd Gr : GenMat toy} {piv : Vector Nat toy.N} {a : MonoAction toy} {ok i j : Nat}
    (h1 : generatorMonomialMul (Vector.replicate toy.K (Vector.replicate toy.N 0)) G Q = .ok Gd)
    (h2 : generatorRREF Gd (Vector.replicate toy.N 0) = .ok (ok, Gr, piv)) (h3 : columnLoop V Qbar Q Gr piv = .ok (U, a, i, j))
    (hU : ∀ i < toy.K, ∀ j < toy.N - toy.K, g2 U i j < 256) (hp : (colsOf U).Perm (colsOf R))
    (hs : (colsOf R).IsChain (· ≤ ·)) : prepareDigestInput V Qbar G Q = .ok (R, a, ok) := by
  obtain ⟨S, e, g1, g2⟩ := C28_sorts toy_WF U (fun i j hi hj => hU i hi j hj)
  have hR : S = R := sorted_unique g2 hs.pairwise (g1.trans hp)
  subst hR
  unfold columnLoop at h3
  unfold prepareDigestInput
  rw [h1, Kat.ok_bind, h2, Kat.ok_bind]
  dsimp only
  rw [h3, Kat.ok_bind]
  dsimp only
  rw [e, Kat.ok_bind]
  rfl

/-- A small block cipher. -/
def toyAes : Kat.Aes := fun k b => b.map (fun x => (x + g k 3) * 37 + g k 11)

def seed : Bytes :=
  [26, 63, 100, 137, 174, 211, 248, 29, 66, 103, 140, 177, 214, 251, 32, 223, 26, 63, 100, 137, 174, 211, 248, 29, 66,
  103, 140, 177, 214, 251, 32, 4, 26, 63, 100, 137, 174, 211, 248, 29, 66, 103, 140, 177, 214, 251, 32, 41]

def msg : Bytes :=
  [64, 153, 242, 75, 164, 253, 86, 175, 8, 97, 186, 19, 108, 197, 30, 155, 64, 153, 242, 75, 164, 253, 86, 175, 8, 97,
  186, 19, 108, 197, 30, 192, 64]

def rng0 : Inc :=
  ⟨#v[2159708767906971418, 16078127569233012546, 2159708767906971418, 297514474926794562, 2159708767906971418,
  2963645454330128194, 31, 0, 0, 0, 0, 0, 0, 0, 0, 0, 0, 0, 0, 0, 9223372036854775808, 0, 0, 0, 0], 0⟩

def sk : Bytes :=
  [152, 137, 245, 110, 90, 43, 155, 219, 211, 124, 126, 102, 77, 62, 1, 152, 202, 225, 145, 200, 0, 140, 75, 203, 65,
  53, 164, 189, 226, 16, 108, 229]

def rng1 : Inc :=
  ⟨#v[15824289383105005976, 10953104270894726355, 14648956147945562570, 16531606898200556865, 14884646179601970421,
  1705560207241303939, 18324378573715102442, 3454787605162493586, 1498780831361941209, 5248634424158974642,
  14016424120840777859, 12599650184495764050, 11181287161020766330, 12586881925512853210, 4484682192380982033,
  9925895187485638014, 18127565365837698085, 2200234257141998130, 7351617826729662111, 6323157814728725241,
  11257982651641594927, 7145409067650903262, 5165713237068855919, 2048072021434798726, 3773994999846386254], 136⟩

def seeds : Vector (Vector UInt8 toy.skSeedLen) (toy.numKeypairs - 1) :=
  #v[#v[0, 88, 227, 97, 99, 86, 169, 183, 130, 49, 206, 38, 245, 9, 15, 36, 151, 192, 26, 102, 211, 231, 86, 185, 252,
  53, 93, 105, 144, 252, 43, 196]]

def g0 : Bytes :=
  [245, 244, 140, 142, 214, 226, 144, 206, 131, 215, 168, 215, 248, 93, 171, 23]

def rng2 : Inc :=
  ⟨#v[15824289383105005976, 10953104270894726355, 14648956147945562570, 16531606898200556865, 14884646179601970421,
  1705560207241303939, 18324378573715102442, 3454787605162493586, 1498780831361941209, 5248634424158974642,
  14016424120840777859, 12599650184495764050, 11181287161020766330, 12586881925512853210, 4484682192380982033,
  9925895187485638014, 18127565365837698085, 2200234257141998130, 7351617826729662111, 6323157814728725241,
  11257982651641594927, 7145409067650903262, 5165713237068855919, 2048072021434798726, 3773994999846386254], 120⟩

def G0 : GenMat toy :=
  #v[#v[1, 0, 28, 49, 24, 116, 91, 82, 58, 44, 21, 82, 121, 22, 126, 34, 12, 75, 116, 119, 98, 41, 119, 84, 106, 104,
  82, 22, 119, 49, 115, 82, 97, 19, 46, 2, 106, 118, 49, 83, 3, 34, 42, 35, 31, 38, 62, 114, 87, 9, 16, 90, 63, 115,
  80, 8, 118, 89, 97, 124, 109, 107, 99, 27, 24, 37, 116, 68, 122, 83, 98, 115, 67, 5, 93, 125, 110, 97, 102, 106,
  109, 103, 90, 32, 5, 11, 31, 84, 0, 95, 113, 100, 121, 39, 81, 112, 20, 124, 1, 37, 65, 105, 77, 120, 82, 105, 109,
  18, 86, 106, 45, 18, 98, 57, 50, 116, 54, 86, 110, 0, 63, 21, 58, 19, 99, 52, 116, 84, 34, 69, 40, 106], #v[0, 1,
  25, 111, 76, 115, 51, 53, 55, 106, 0, 111, 32, 60, 44, 73, 100, 29, 37, 41, 60, 110, 32, 2, 101, 57, 8, 8, 97, 56,
  95, 25, 5, 50, 52, 40, 125, 79, 9, 40, 97, 20, 13, 6, 125, 35, 27, 109, 125, 63, 69, 58, 94, 42, 43, 7, 121, 125,
  99, 77, 67, 33, 111, 81, 78, 88, 118, 20, 108, 7, 97, 20, 90, 74, 62, 120, 45, 82, 47, 85, 106, 33, 81, 117, 93,
  119, 25, 33, 68, 109, 74, 35, 123, 38, 24, 78, 84, 118, 100, 90, 120, 82, 76, 72, 95, 31, 98, 82, 9, 26, 11, 117,
  114, 51, 8, 103, 103, 32, 74, 106, 21, 24, 83, 66, 99, 110, 30, 109, 104, 29, 30, 14]]

def Qm : Monomial toy :=
  ⟨#v[64, 122, 80, 19, 69, 17, 64, 1, 41, 27, 87, 67, 34, 111, 25, 36, 39, 60, 7, 52, 30, 89, 38, 45, 14, 66, 27, 29,
  87, 98, 109, 98, 11, 53, 26, 91, 117, 19, 39, 102, 18, 94, 43, 107, 5, 124, 103, 77, 42, 5, 41, 117, 124, 43, 113,
  15, 114, 88, 99, 79, 36, 68, 35, 56, 55, 72, 89, 87, 12, 72, 17, 110, 59, 78, 95, 61, 103, 9, 100, 1, 99, 79, 64,
  108, 6, 46, 94, 8, 89, 103, 50, 93, 109, 17, 18, 126, 12, 58, 87, 39, 51, 93, 86, 101, 12, 110, 74, 98, 3, 126, 69,
  87, 108, 65, 13, 9, 98, 88, 10, 116, 53, 20, 52, 101, 6, 67, 45, 92, 24, 34, 116, 48], #v[59, 123, 10, 86, 38, 36,
  68, 60, 113, 75, 22, 70, 2, 61, 110, 63, 90, 85, 118, 31, 121, 5, 24, 44, 25, 101, 4, 96, 82, 111, 43, 13, 115, 37,
  129, 108, 128, 107, 104, 76, 98, 71, 109, 114, 78, 41, 84, 19, 74, 7, 64, 16, 87, 28, 32, 88, 105, 83, 95, 18, 73,
  49, 45, 67, 102, 124, 125, 48, 6, 65, 34, 117, 50, 3, 89, 12, 94, 23, 103, 1, 58, 80, 30, 47, 55, 116, 27, 99, 69,
  21, 0, 52, 11, 56, 26, 42, 92, 15, 131, 100, 81, 14, 57, 51, 119, 46, 54, 53, 91, 17, 62, 8, 39, 126, 20, 122, 29,
  9, 35, 97, 93, 40, 72, 120, 130, 106, 112, 77, 66, 127, 79, 33]⟩

def Mk : GenMat toy :=
  #v[#v[62, 106, 50, 9, 55, 93, 67, 45, 42, 75, 81, 108, 5, 35, 113, 80, 116, 21, 17, 15, 15, 6, 49, 111, 77, 87, 61,
  120, 119, 85, 45, 92, 23, 8, 15, 84, 67, 118, 5, 43, 39, 13, 15, 89, 97, 36, 120, 27, 74, 37, 16, 55, 29, 113, 65,
  30, 28, 18, 123, 64, 82, 29, 57, 81, 21, 7, 54, 115, 109, 0, 33, 21, 95, 114, 98, 45, 84, 108, 28, 68, 9, 13, 66,
  85, 36, 55, 42, 65, 120, 72, 87, 4, 113, 37, 27, 78, 3, 0, 54, 37, 46, 6, 50, 40, 6, 117, 55, 83, 55, 28, 102, 103,
  13, 92, 62, 51, 125, 77, 50, 95, 14, 19, 28, 0, 124, 37, 22, 60, 83, 53, 86, 87], #v[17, 85, 72, 57, 89, 11, 26, 61,
  19, 22, 95, 72, 81, 37, 6, 113, 55, 101, 114, 11, 104, 51, 0, 103, 73, 17, 51, 64, 28, 61, 104, 100, 33, 37, 125,
  105, 50, 110, 37, 120, 99, 22, 49, 68, 90, 75, 108, 63, 89, 85, 103, 33, 80, 35, 13, 50, 11, 59, 80, 0, 53, 56, 124,
  88, 35, 123, 83, 91, 89, 83, 71, 102, 125, 126, 43, 68, 16, 122, 117, 51, 67, 24, 57, 78, 114, 89, 77, 99, 105, 48,
  90, 27, 119, 97, 63, 22, 105, 104, 95, 10, 81, 79, 99, 1, 97, 78, 4, 104, 84, 51, 84, 27, 80, 96, 7, 55, 13, 41, 5,
  124, 62, 22, 38, 122, 113, 88, 13, 97, 20, 82, 86, 64]]

def Rk : GenMat toy :=
  #v[#v[1, 0, 24, 21, 18, 23, 20, 43, 92, 19, 3, 69, 48, 119, 116, 4, 61, 22, 4, 107, 118, 21, 84, 102, 15, 62, 79,
  42, 53, 39, 115, 72, 120, 109, 100, 54, 72, 108, 122, 116, 109, 76, 20, 58, 71, 70, 95, 83, 105, 45, 48, 66, 90, 73,
  64, 63, 93, 71, 106, 19, 77, 38, 64, 9, 6, 88, 94, 101, 38, 74, 32, 3, 92, 33, 113, 37, 94, 8, 111, 91, 85, 38, 28,
  97, 91, 18, 6, 81, 25, 46, 72, 20, 1, 71, 83, 6, 24, 56, 120, 73, 82, 124, 19, 104, 36, 43, 109, 35, 113, 95, 121,
  99, 117, 21, 64, 4, 58, 115, 27, 111, 116, 50, 88, 95, 25, 115, 81, 56, 107, 75, 110, 58], #v[0, 1, 8, 116, 111, 3,
  74, 22, 64, 113, 5, 126, 81, 11, 71, 8, 102, 70, 11, 37, 9, 98, 34, 60, 89, 64, 61, 82, 48, 99, 35, 57, 75, 13, 101,
  101, 34, 29, 112, 32, 72, 0, 16, 40, 78, 84, 51, 20, 119, 119, 20, 35, 95, 65, 77, 112, 116, 112, 41, 47, 42, 8, 29,
  59, 53, 72, 27, 75, 107, 31, 105, 26, 1, 92, 81, 95, 80, 85, 24, 84, 57, 39, 13, 113, 19, 111, 52, 103, 56, 84, 27,
  77, 52, 99, 20, 14, 107, 123, 7, 117, 125, 9, 90, 33, 106, 73, 41, 51, 77, 7, 50, 112, 115, 106, 59, 88, 2, 100, 35,
  45, 112, 56, 71, 93, 80, 114, 99, 102, 64, 104, 109, 28]]

def pivk : Vector Nat toy.N :=
  #v[1, 1, 0, 0, 0, 0, 0, 0, 0, 0, 0, 0, 0, 0, 0, 0, 0, 0, 0, 0, 0, 0, 0, 0, 0, 0, 0, 0, 0, 0, 0, 0, 0, 0, 0, 0, 0, 0,
  0, 0, 0, 0, 0, 0, 0, 0, 0, 0, 0, 0, 0, 0, 0, 0, 0, 0, 0, 0, 0, 0, 0, 0, 0, 0, 0, 0, 0, 0, 0, 0, 0, 0, 0, 0, 0, 0, 0,
  0, 0, 0, 0, 0, 0, 0, 0, 0, 0, 0, 0, 0, 0, 0, 0, 0, 0, 0, 0, 0, 0, 0, 0, 0, 0, 0, 0, 0, 0, 0, 0, 0, 0, 0, 0, 0, 0, 0,
  0, 0, 0, 0, 0, 0, 0, 0, 0, 0, 0, 0, 0, 0, 0, 0]

def okk : Nat :=
  1

def Qinv : Monomial toy :=
  ⟨#v[94, 1, 71, 57, 80, 10, 53, 51, 73, 13, 27, 7, 25, 35, 56, 46, 38, 126, 82, 33, 88, 37, 73, 113, 117, 118, 120,
  50, 65, 35, 2, 22, 9, 45, 15, 89, 15, 12, 81, 20, 108, 42, 126, 7, 48, 98, 112, 20, 73, 99, 28, 83, 56, 35, 115,
  106, 15, 96, 68, 2, 1, 119, 81, 60, 31, 30, 90, 93, 2, 10, 91, 50, 22, 60, 124, 80, 66, 29, 51, 23, 82, 5, 73, 13,
  37, 36, 107, 42, 17, 123, 114, 85, 53, 12, 37, 68, 92, 23, 120, 16, 114, 102, 97, 47, 114, 39, 91, 107, 67, 65, 61,
  35, 48, 31, 19, 104, 58, 112, 109, 53, 83, 72, 113, 76, 30, 10, 43, 71, 38, 44, 106, 73], #v[90, 79, 12, 73, 26, 21,
  68, 49, 111, 117, 2, 92, 75, 31, 101, 97, 51, 109, 59, 47, 114, 89, 10, 77, 22, 24, 94, 86, 53, 116, 82, 19, 54,
  131, 70, 118, 5, 33, 4, 112, 121, 45, 95, 30, 23, 62, 105, 83, 67, 61, 72, 103, 91, 107, 106, 84, 93, 102, 80, 0, 7,
  13, 110, 15, 50, 69, 128, 63, 6, 88, 11, 41, 122, 60, 48, 9, 39, 127, 44, 130, 81, 100, 28, 57, 46, 17, 3, 52, 55,
  74, 16, 108, 96, 120, 76, 58, 27, 119, 40, 87, 99, 25, 64, 78, 38, 56, 125, 37, 35, 42, 14, 29, 126, 8, 43, 32, 85,
  71, 18, 104, 123, 20, 115, 1, 65, 66, 113, 129, 36, 34, 124, 98]⟩

def code : Vector UInt8 toy.rrefBytes :=
  #v[3, 0, 0, 0, 0, 0, 0, 0, 0, 0, 0, 0, 0, 0, 0, 0, 0, 152, 138, 228, 66, 89, 113, 39, 131, 34, 236, 78, 39, 244, 44,
  132, 181, 189, 66, 53, 63, 124, 79, 85, 237, 52, 71, 226, 219, 100, 27, 146, 173, 167, 183, 153, 20, 221, 209, 248,
  157, 166, 91, 48, 161, 54, 9, 252, 117, 143, 234, 73, 211, 4, 76, 24, 176, 222, 178, 73, 9, 26, 112, 67, 241, 146,
  23, 241, 222, 86, 77, 156, 240, 86, 98, 136, 102, 92, 72, 74, 224, 56, 53, 96, 112, 248, 164, 148, 63, 65, 147, 86,
  237, 81, 252, 155, 31, 215, 43, 64, 130, 110, 190, 121, 211, 101, 216, 111, 102, 30, 197, 173, 151, 110, 29, 130,
  254, 30, 40, 45, 192, 120, 193, 31, 93, 28, 17, 102, 227, 162, 148, 16, 139, 120, 89, 96, 79, 10, 27, 143, 114, 203,
  70, 185, 44, 234, 192, 65, 72, 0, 4, 229, 164, 206, 40, 247, 59, 101, 244, 13, 54, 225, 116, 120, 234, 165, 66, 116,
  118, 53, 228, 102, 185, 254, 164, 53, 1, 110, 244, 11, 173, 98, 168, 185, 83, 35, 62, 121, 211, 206, 56, 234, 166,
  73, 27, 83, 28, 235, 253, 161, 222, 79, 104, 67, 234, 100, 106, 214, 60, 200, 224, 115, 245, 14, 43, 32, 143, 90,
  112, 220, 177, 11, 149, 143, 205, 64, 116, 155, 3]

def ephem : Bytes :=
  [234, 90, 17, 224, 57, 69, 77, 254, 146, 6, 34, 204, 5, 223, 241, 47]

def rng3 : Inc :=
  ⟨#v[15824289383105005976, 10953104270894726355, 14648956147945562570, 16531606898200556865, 14884646179601970421,
  1705560207241303939, 18324378573715102442, 3454787605162493586, 1498780831361941209, 5248634424158974642,
  14016424120840777859, 12599650184495764050, 11181287161020766330, 12586881925512853210, 4484682192380982033,
  9925895187485638014, 18127565365837698085, 2200234257141998130, 7351617826729662111, 6323157814728725241,
  11257982651641594927, 7145409067650903262, 5165713237068855919, 2048072021434798726, 3773994999846386254], 104⟩

def salt : Bytes :=
  [217, 62, 126, 169, 57, 189, 204, 20, 178, 242, 225, 71, 51, 229, 214, 72, 131, 112, 238, 199, 121, 87, 132, 194,
  82, 18, 14, 69, 22, 243, 218, 174]

def rng4 : Inc :=
  ⟨#v[15824289383105005976, 10953104270894726355, 14648956147945562570, 16531606898200556865, 14884646179601970421,
  1705560207241303939, 18324378573715102442, 3454787605162493586, 1498780831361941209, 5248634424158974642,
  14016424120840777859, 12599650184495764050, 11181287161020766330, 12586881925512853210, 4484682192380982033,
  9925895187485638014, 18127565365837698085, 2200234257141998130, 7351617826729662111, 6323157814728725241,
  11257982651641594927, 7145409067650903262, 5165713237068855919, 2048072021434798726, 3773994999846386254], 72⟩

def tree : TreeBuf toy :=
  #v[234, 90, 17, 224, 57, 69, 77, 254, 146, 6, 34, 204, 5, 223, 241, 47, 214, 219, 219, 42, 67, 128, 190, 94, 10,
  179, 62, 67, 156, 188, 6, 146, 202, 142, 27, 192, 251, 142, 24, 246, 75, 255, 158, 154, 99, 87, 108, 188, 142, 12,
  113, 53, 83, 207, 177, 115, 181, 226, 3, 167, 5, 188, 248, 191, 212, 243, 181, 177, 116, 21, 147, 13, 141, 139, 0,
  30, 112, 6, 52, 157, 112, 216, 234, 11, 62, 100, 233, 34, 37, 120, 251, 181, 69, 102, 214, 186, 211, 199, 179, 28,
  173, 4, 125, 164, 105, 23, 27, 252, 75, 5, 47, 48]

def M0 : GenMat toy :=
  #v[#v[8, 14, 12, 106, 126, 97, 7, 72, 82, 53, 102, 50, 93, 33, 100, 52, 112, 49, 1, 54, 70, 80, 3, 53, 14, 80, 107,
  107, 54, 69, 94, 35, 45, 81, 53, 90, 60, 125, 122, 84, 2, 66, 88, 18, 4, 4, 0, 105, 110, 97, 57, 47, 84, 14, 67,
  113, 91, 49, 25, 32, 53, 2, 16, 84, 17, 66, 115, 114, 52, 81, 18, 112, 86, 100, 79, 1, 18, 17, 3, 12, 10, 78, 25,
  12, 99, 26, 114, 66, 114, 114, 75, 117, 113, 35, 53, 19, 12, 10, 105, 79, 103, 11, 124, 17, 91, 82, 84, 122, 42,
  111, 10, 11, 59, 25, 2, 111, 40, 98, 0, 111, 56, 44, 88, 93, 75, 121, 39, 11, 3, 101, 0, 24], #v[106, 8, 90, 64, 20,
  2, 109, 94, 125, 18, 58, 82, 92, 22, 12, 96, 64, 56, 29, 68, 93, 106, 118, 76, 106, 74, 123, 106, 82, 88, 40, 109,
  92, 101, 6, 60, 70, 54, 99, 123, 47, 50, 72, 27, 87, 87, 37, 100, 52, 42, 38, 39, 27, 115, 19, 49, 90, 53, 105, 104,
  35, 111, 10, 125, 62, 53, 19, 15, 47, 80, 18, 102, 99, 65, 65, 37, 106, 123, 43, 107, 80, 55, 116, 110, 89, 14, 106,
  23, 50, 78, 6, 107, 89, 112, 92, 67, 100, 27, 79, 67, 4, 5, 114, 0, 34, 8, 0, 125, 32, 53, 97, 46, 106, 96, 119, 22,
  109, 94, 10, 8, 71, 87, 68, 117, 13, 28, 74, 91, 105, 124, 91, 59]]

def R0 : GenMat toy :=
  #v[#v[1, 0, 23, 107, 7, 100, 86, 115, 31, 114, 44, 27, 112, 24, 94, 79, 0, 6, 67, 122, 93, 114, 126, 72, 21, 89,
  126, 77, 125, 13, 80, 10, 79, 83, 57, 77, 88, 17, 62, 7, 50, 13, 85, 93, 35, 35, 17, 63, 21, 36, 53, 35, 59, 32, 49,
  112, 117, 87, 0, 8, 36, 100, 122, 80, 76, 59, 82, 102, 5, 15, 82, 117, 69, 60, 117, 105, 119, 80, 119, 72, 117, 45,
  84, 118, 86, 5, 58, 107, 46, 52, 88, 41, 48, 56, 21, 117, 7, 24, 122, 63, 66, 71, 87, 99, 105, 15, 26, 122, 38, 82,
  39, 107, 44, 116, 11, 30, 69, 117, 111, 27, 90, 126, 66, 72, 26, 113, 37, 35, 96, 79, 83, 11], #v[0, 1, 24, 19, 5,
  104, 33, 12, 97, 111, 91, 97, 115, 34, 26, 13, 8, 118, 116, 43, 97, 122, 28, 8, 116, 100, 108, 9, 5, 61, 88, 24, 76,
  40, 71, 35, 81, 99, 64, 2, 26, 88, 121, 57, 71, 71, 81, 35, 14, 68, 1, 65, 63, 19, 4, 62, 112, 108, 29, 34, 83, 70,
  4, 51, 112, 98, 43, 95, 19, 97, 27, 50, 3, 118, 93, 58, 24, 19, 32, 123, 79, 125, 108, 6, 94, 126, 102, 125, 0, 51,
  73, 121, 26, 34, 19, 125, 15, 114, 92, 15, 15, 60, 68, 117, 10, 88, 100, 66, 72, 79, 51, 112, 97, 126, 12, 18, 36,
  49, 118, 56, 7, 40, 23, 29, 54, 62, 27, 8, 27, 80, 7, 68]]

def piv0 : Vector Nat toy.N :=
  #v[1, 1, 0, 0, 0, 0, 0, 0, 0, 0, 0, 0, 0, 0, 0, 0, 0, 0, 0, 0, 0, 0, 0, 0, 0, 0, 0, 0, 0, 0, 0, 0, 0, 0, 0, 0, 0, 0,
  0, 0, 0, 0, 0, 0, 0, 0, 0, 0, 0, 0, 0, 0, 0, 0, 0, 0, 0, 0, 0, 0, 0, 0, 0, 0, 0, 0, 0, 0, 0, 0, 0, 0, 0, 0, 0, 0, 0,
  0, 0, 0, 0, 0, 0, 0, 0, 0, 0, 0, 0, 0, 0, 0, 0, 0, 0, 0, 0, 0, 0, 0, 0, 0, 0, 0, 0, 0, 0, 0, 0, 0, 0, 0, 0, 0, 0, 0,
  0, 0, 0, 0, 0, 0, 0, 0, 0, 0, 0, 0, 0, 0, 0, 0]

def U0 : NormIS toy :=
  #v[#v[1, 1, 1, 1, 1, 1, 1, 1, 1, 1, 1, 1, 1, 1, 0, 1, 1, 1, 1, 1, 1, 1, 1, 1, 1, 1, 1, 1, 1, 1, 1, 1, 1, 1, 1, 1, 1,
  1, 1, 1, 1, 1, 1, 1, 1, 1, 1, 1, 1, 1, 1, 1, 1, 1, 1, 1, 0, 1, 1, 1, 1, 1, 1, 1, 1, 1, 1, 1, 1, 1, 1, 1, 1, 1, 1, 1,
  1, 1, 1, 1, 1, 1, 1, 1, 1, 1, 1, 1, 1, 1, 1, 1, 1, 1, 1, 1, 1, 1, 1, 1, 1, 1, 1, 1, 1, 1, 1, 1, 1, 1, 1, 1, 1, 1, 1,
  1, 1, 1, 1, 1, 1, 1, 1, 1, 1, 1, 1, 1, 1, 1], #v[117, 107, 37, 62, 120, 126, 40, 11, 80, 13, 77, 12, 30, 50, 1, 62,
  15, 93, 98, 59, 99, 113, 66, 111, 19, 43, 61, 34, 90, 104, 9, 103, 77, 12, 37, 88, 42, 91, 31, 124, 109, 17, 100,
  100, 72, 57, 43, 16, 12, 20, 113, 76, 26, 89, 65, 10, 1, 36, 27, 115, 50, 107, 75, 77, 95, 47, 80, 125, 101, 122,
  116, 57, 105, 32, 124, 5, 123, 7, 81, 31, 92, 84, 7, 76, 120, 89, 0, 106, 60, 68, 27, 114, 13, 51, 111, 100, 7, 97,
  6, 8, 11, 82, 115, 99, 82, 63, 42, 18, 99, 96, 109, 104, 105, 26, 122, 84, 72, 35, 41, 87, 60, 108, 90, 50, 114, 22,
  36, 83, 72, 87]]

def Q0 : Monomial toy :=
  ⟨#v[84, 10, 16, 38, 121, 99, 42, 31, 79, 108, 25, 32, 21, 10, 28, 76, 49, 101, 58, 21, 6, 44, 6, 59, 16, 112, 28,
  13, 79, 59, 54, 45, 77, 17, 32, 9, 80, 23, 64, 11, 86, 80, 95, 44, 74, 50, 98, 34, 6, 124, 7, 22, 105, 107, 7, 104,
  36, 92, 10, 100, 96, 38, 123, 98, 16, 47, 87, 63, 15, 19, 39, 23, 4, 5, 87, 55, 97, 101, 34, 67, 120, 43, 2, 58, 8,
  71, 16, 26, 107, 117, 124, 24, 58, 53, 111, 50, 115, 99, 125, 53, 123, 85, 54, 26, 107, 93, 114, 125, 28, 6, 120,
  91, 112, 56, 122, 22, 63, 41, 85, 38, 105, 87, 79, 6, 81, 24, 67, 117, 3, 101, 110, 31], #v[106, 118, 54, 52, 48,
  28, 83, 114, 97, 9, 103, 39, 75, 12, 84, 121, 25, 105, 102, 72, 21, 85, 74, 22, 32, 104, 110, 59, 78, 5, 88, 6, 100,
  29, 124, 76, 117, 51, 122, 131, 45, 23, 94, 62, 0, 38, 27, 87, 53, 73, 71, 90, 127, 55, 68, 20, 50, 36, 33, 69, 11,
  61, 16, 3, 128, 42, 112, 123, 15, 34, 96, 98, 24, 82, 35, 77, 40, 43, 126, 91, 4, 115, 60, 81, 116, 95, 66, 113, 46,
  65, 108, 89, 13, 31, 129, 2, 1, 63, 37, 120, 125, 93, 30, 7, 101, 92, 26, 56, 107, 18, 41, 86, 19, 64, 44, 79, 14,
  49, 99, 130, 111, 17, 80, 67, 70, 47, 58, 57, 10, 119, 8, 109]⟩

def V0 : NormIS toy :=
  #v[#v[0, 0, 1, 1, 1, 1, 1, 1, 1, 1, 1, 1, 1, 1, 1, 1, 1, 1, 1, 1, 1, 1, 1, 1, 1, 1, 1, 1, 1, 1, 1, 1, 1, 1, 1, 1, 1,
  1, 1, 1, 1, 1, 1, 1, 1, 1, 1, 1, 1, 1, 1, 1, 1, 1, 1, 1, 1, 1, 1, 1, 1, 1, 1, 1, 1, 1, 1, 1, 1, 1, 1, 1, 1, 1, 1, 1,
  1, 1, 1, 1, 1, 1, 1, 1, 1, 1, 1, 1, 1, 1, 1, 1, 1, 1, 1, 1, 1, 1, 1, 1, 1, 1, 1, 1, 1, 1, 1, 1, 1, 1, 1, 1, 1, 1, 1,
  1, 1, 1, 1, 1, 1, 1, 1, 1, 1, 1, 1, 1, 1, 1], #v[1, 1, 0, 5, 6, 7, 7, 7, 8, 9, 10, 11, 11, 12, 12, 12, 13, 13, 15,
  16, 17, 18, 19, 20, 22, 26, 26, 27, 27, 30, 31, 31, 32, 34, 35, 36, 36, 37, 37, 40, 41, 42, 42, 43, 43, 47, 50, 50,
  50, 51, 57, 57, 59, 60, 60, 61, 62, 62, 63, 65, 66, 68, 72, 72, 72, 75, 76, 76, 77, 77, 77, 80, 80, 81, 82, 82, 83,
  84, 84, 87, 87, 88, 89, 89, 90, 90, 91, 92, 93, 95, 96, 97, 98, 99, 99, 99, 100, 100, 100, 101, 103, 104, 104, 105,
  105, 106, 107, 107, 108, 109, 109, 111, 111, 113, 113, 114, 114, 115, 115, 116, 117, 120, 120, 122, 122, 123, 124,
  124, 125, 126]]

def act0 : MonoAction toy :=
  ⟨#v[74, 115], #v[44, 96]⟩

def h1 : Inc :=
  ⟨#v[15558423665238826703, 11031515462271504869, 15876763377068056281, 10026324301818700226, 5517032444689523569,
  6295689866826067577, 13026793174385671287, 10989065635697074901, 16265166093903697619, 16140924861456560679,
  7192689467010383406, 10765542480634936134, 10731017993660439842, 8265742391548543218, 360772970174615926,
  2385681987634314277, 672066572590778403, 5719172838992781324, 8611542518739107226, 8396689619243937477,
  3031746185087467105, 1642874118534203060, 4364613194370299214, 4468747884157685601, 8035560555801728034], 124⟩

def M1 : GenMat toy :=
  #v[#v[55, 96, 26, 0, 94, 104, 82, 17, 63, 23, 74, 125, 15, 23, 58, 48, 19, 117, 62, 9, 35, 77, 25, 6, 78, 50, 94,
  51, 68, 35, 29, 87, 122, 114, 51, 90, 70, 66, 56, 98, 67, 16, 69, 109, 93, 92, 49, 50, 120, 10, 86, 104, 48, 8, 112,
  75, 98, 45, 65, 121, 101, 52, 24, 2, 30, 116, 104, 56, 67, 109, 11, 0, 82, 99, 58, 37, 7, 18, 61, 124, 93, 65, 87,
  106, 69, 16, 13, 100, 14, 60, 81, 49, 117, 38, 70, 98, 117, 21, 4, 89, 1, 102, 79, 46, 17, 0, 118, 109, 36, 66, 25,
  37, 46, 101, 79, 48, 26, 102, 96, 38, 125, 58, 12, 44, 60, 41, 92, 122, 104, 52, 82, 115], #v[23, 31, 68, 49, 76,
  49, 115, 96, 44, 12, 10, 54, 101, 80, 103, 102, 66, 86, 106, 105, 20, 75, 108, 7, 41, 86, 40, 36, 121, 6, 77, 123,
  118, 98, 9, 30, 31, 97, 0, 61, 67, 56, 78, 37, 22, 17, 64, 116, 114, 60, 103, 27, 119, 98, 0, 98, 125, 23, 59, 76,
  37, 84, 14, 83, 35, 82, 48, 27, 1, 2, 97, 29, 113, 89, 59, 123, 104, 34, 106, 118, 11, 98, 66, 94, 12, 55, 33, 38,
  75, 119, 56, 24, 112, 59, 12, 56, 83, 4, 45, 101, 27, 112, 15, 3, 47, 11, 6, 84, 33, 14, 4, 74, 116, 40, 3, 2, 36,
  117, 79, 23, 39, 80, 47, 17, 73, 90, 45, 92, 22, 46, 94, 25]]

def R1 : GenMat toy :=
  #v[#v[1, 0, 24, 126, 38, 85, 53, 91, 3, 90, 89, 43, 8, 29, 33, 41, 19, 14, 51, 21, 87, 28, 88, 106, 52, 5, 18, 6,
  105, 51, 73, 32, 91, 19, 118, 109, 42, 20, 17, 46, 18, 40, 124, 67, 78, 117, 91, 64, 3, 53, 105, 101, 121, 73, 34,
  82, 11, 66, 83, 53, 119, 5, 7, 19, 22, 110, 28, 32, 66, 104, 60, 2, 66, 48, 65, 103, 104, 43, 121, 78, 86, 20, 85,
  97, 45, 110, 82, 119, 120, 43, 62, 97, 99, 68, 102, 15, 97, 28, 126, 35, 72, 6, 24, 126, 92, 119, 83, 79, 123, 115,
  2, 104, 90, 36, 102, 56, 105, 37, 69, 48, 77, 119, 61, 48, 88, 101, 62, 6, 70, 125, 126, 106], #v[0, 1, 95, 31, 48,
  86, 75, 38, 118, 77, 49, 19, 26, 63, 28, 63, 29, 103, 68, 123, 59, 39, 57, 24, 16, 81, 33, 9, 53, 32, 104, 13, 51,
  71, 93, 43, 19, 103, 98, 17, 124, 9, 58, 58, 119, 94, 123, 30, 67, 106, 77, 98, 123, 76, 69, 98, 86, 46, 96, 0, 44,
  126, 69, 91, 120, 89, 75, 14, 33, 54, 102, 65, 53, 41, 52, 116, 45, 88, 98, 118, 125, 17, 21, 13, 94, 125, 100, 85,
  24, 17, 91, 64, 8, 17, 64, 89, 70, 49, 121, 92, 13, 77, 81, 50, 7, 121, 82, 67, 45, 79, 56, 85, 23, 77, 76, 106,
  124, 5, 21, 2, 108, 29, 30, 10, 19, 14, 21, 19, 43, 89, 98, 0]]

def piv1 : Vector Nat toy.N :=
  #v[1, 1, 0, 0, 0, 0, 0, 0, 0, 0, 0, 0, 0, 0, 0, 0, 0, 0, 0, 0, 0, 0, 0, 0, 0, 0, 0, 0, 0, 0, 0, 0, 0, 0, 0, 0, 0, 0,
  0, 0, 0, 0, 0, 0, 0, 0, 0, 0, 0, 0, 0, 0, 0, 0, 0, 0, 0, 0, 0, 0, 0, 0, 0, 0, 0, 0, 0, 0, 0, 0, 0, 0, 0, 0, 0, 0, 0,
  0, 0, 0, 0, 0, 0, 0, 0, 0, 0, 0, 0, 0, 0, 0, 0, 0, 0, 0, 0, 0, 0, 0, 0, 0, 0, 0, 0, 0, 0, 0, 0, 0, 0, 0, 0, 0, 0, 0,
  0, 0, 0, 0, 0, 0, 0, 0, 0, 0, 0, 0, 0, 0, 0, 0]

def U1 : NormIS toy :=
  #v[#v[1, 1, 1, 1, 1, 1, 1, 1, 1, 1, 1, 1, 1, 1, 1, 1, 1, 1, 1, 1, 1, 1, 1, 1, 1, 1, 1, 1, 1, 1, 1, 1, 1, 1, 1, 1, 1,
  1, 1, 1, 1, 1, 1, 1, 1, 1, 1, 1, 1, 1, 1, 1, 1, 1, 1, 1, 1, 1, 1, 1, 1, 1, 1, 1, 1, 1, 1, 1, 1, 1, 1, 1, 1, 1, 1, 1,
  1, 1, 1, 1, 1, 1, 1, 1, 1, 1, 1, 1, 1, 1, 1, 1, 1, 1, 1, 1, 1, 1, 1, 1, 1, 1, 1, 1, 1, 1, 1, 1, 1, 1, 1, 1, 1, 1, 1,
  1, 1, 1, 1, 1, 1, 1, 1, 1, 1, 1, 1, 1, 1, 1], #v[41, 96, 28, 4, 11, 6, 124, 70, 109, 92, 35, 81, 124, 48, 55, 89,
  86, 24, 116, 15, 106, 17, 98, 67, 23, 65, 38, 33, 31, 52, 115, 104, 32, 47, 70, 75, 73, 97, 21, 105, 23, 71, 52, 16,
  113, 60, 107, 2, 60, 6, 43, 8, 73, 122, 54, 120, 44, 0, 58, 76, 28, 85, 17, 62, 107, 56, 64, 86, 116, 96, 72, 67,
  77, 101, 114, 5, 26, 122, 62, 58, 63, 80, 67, 30, 26, 37, 51, 89, 24, 91, 36, 32, 33, 116, 40, 97, 6, 126, 9, 34,
  51, 77, 76, 96, 27, 33, 84, 4, 28, 46, 44, 48, 63, 79, 29, 7, 50, 90, 8, 44, 115, 69, 120, 19, 113, 109, 75, 19, 29,
  0]]

def Q1 : Monomial toy :=
  ⟨#v[56, 29, 86, 105, 120, 46, 110, 64, 7, 103, 90, 28, 71, 66, 58, 94, 105, 94, 107, 33, 76, 40, 57, 40, 82, 68, 78,
  85, 44, 21, 18, 44, 100, 21, 65, 52, 15, 37, 74, 119, 8, 59, 74, 2, 59, 103, 9, 23, 58, 107, 64, 44, 97, 19, 26, 75,
  56, 60, 105, 37, 61, 104, 113, 14, 92, 39, 64, 8, 29, 29, 68, 87, 22, 115, 109, 119, 44, 85, 86, 95, 83, 63, 122,
  62, 25, 32, 54, 34, 25, 48, 86, 119, 103, 107, 28, 66, 43, 102, 125, 109, 108, 106, 54, 58, 116, 26, 38, 73, 13, 40,
  45, 8, 7, 97, 73, 7, 49, 92, 22, 66, 74, 15, 28, 1, 111, 17, 43, 62, 59, 29, 93, 73], #v[38, 71, 32, 81, 50, 63,
  128, 125, 110, 31, 54, 49, 72, 0, 84, 97, 17, 58, 44, 96, 6, 65, 129, 121, 67, 82, 112, 126, 30, 86, 93, 61, 52, 77,
  42, 66, 37, 115, 36, 39, 62, 60, 124, 94, 34, 5, 47, 130, 80, 10, 53, 9, 12, 116, 15, 45, 98, 23, 22, 85, 57, 114,
  70, 79, 46, 103, 74, 108, 107, 59, 89, 73, 21, 68, 51, 41, 88, 92, 19, 111, 64, 122, 14, 102, 120, 56, 13, 18, 3,
  131, 109, 99, 7, 69, 43, 2, 95, 55, 11, 1, 29, 90, 26, 101, 33, 8, 24, 123, 117, 91, 48, 104, 27, 28, 4, 25, 83,
  119, 76, 105, 35, 78, 87, 16, 40, 127, 20, 100, 113, 118, 75, 106]⟩

def V1 : NormIS toy :=
  #v[#v[1, 1, 1, 1, 1, 1, 1, 1, 1, 1, 1, 1, 1, 1, 1, 1, 1, 1, 1, 1, 1, 1, 1, 1, 1, 1, 1, 1, 1, 1, 1, 1, 1, 1, 1, 1, 1,
  1, 1, 1, 1, 1, 1, 1, 1, 1, 1, 1, 1, 1, 1, 1, 1, 1, 1, 1, 1, 1, 1, 1, 1, 1, 1, 1, 1, 1, 1, 1, 1, 1, 1, 1, 1, 1, 1, 1,
  1, 1, 1, 1, 1, 1, 1, 1, 1, 1, 1, 1, 1, 1, 1, 1, 1, 1, 1, 1, 1, 1, 1, 1, 1, 1, 1, 1, 1, 1, 1, 1, 1, 1, 1, 1, 1, 1, 1,
  1, 1, 1, 1, 1, 1, 1, 1, 1, 1, 1, 1, 1, 1, 1], #v[0, 0, 2, 4, 4, 5, 6, 6, 6, 7, 8, 8, 9, 11, 15, 16, 17, 17, 19, 19,
  21, 23, 23, 24, 24, 26, 26, 27, 28, 28, 28, 29, 29, 30, 31, 32, 32, 33, 33, 33, 34, 35, 36, 37, 38, 40, 41, 43, 44,
  44, 44, 46, 47, 48, 48, 50, 51, 51, 52, 52, 54, 55, 56, 58, 58, 60, 60, 62, 62, 63, 63, 64, 65, 67, 67, 67, 69, 70,
  70, 71, 72, 73, 73, 75, 75, 76, 76, 77, 77, 79, 80, 81, 84, 85, 86, 86, 89, 89, 90, 91, 92, 96, 96, 96, 97, 97, 98,
  101, 104, 105, 106, 107, 107, 109, 109, 113, 113, 114, 115, 115, 116, 116, 116, 120, 120, 122, 122, 124, 124, 126]]

def act1 : MonoAction toy :=
  ⟨#v[66, 109], #v[13, 99]⟩

def h2 : Inc :=
  ⟨#v[4840895288864153648, 26932394149421181, 1893249927354280312, 5062373463857563203, 15479443581380248231,
  11712854234854843421, 608004990473187845, 6095292594858593808, 12257297787620361797, 12681905325000965761,
  13721518677994947121, 9973380008453390804, 1737368937481068270, 15160901341395218773, 15433836161969878876,
  8802848755981122933, 7229663295796310709, 3467102604980104751, 5888740344047679762, 17578557968584816054,
  17555213520716251750, 9412792382793290968, 1854733998110031846, 16939998281194353608, 9065274180228015398], 112⟩

def M2 : GenMat toy :=
  #v[#v[51, 52, 12, 18, 93, 82, 110, 125, 99, 3, 120, 74, 22, 102, 0, 80, 13, 68, 0, 52, 12, 27, 10, 31, 22, 39, 48,
  7, 13, 121, 108, 77, 103, 2, 3, 33, 87, 110, 81, 45, 17, 32, 13, 19, 81, 88, 97, 81, 63, 11, 124, 112, 113, 88, 64,
  88, 81, 68, 92, 8, 64, 101, 94, 105, 77, 13, 78, 125, 86, 9, 113, 75, 120, 38, 20, 0, 111, 61, 113, 73, 2, 106, 66,
  101, 93, 84, 109, 70, 46, 111, 72, 66, 45, 49, 77, 65, 96, 30, 54, 41, 9, 66, 9, 82, 117, 19, 28, 30, 110, 29, 43,
  81, 38, 81, 110, 82, 77, 18, 57, 90, 75, 32, 98, 31, 120, 83, 45, 58, 11, 12, 1, 71], #v[62, 125, 110, 101, 79, 11,
  43, 41, 122, 115, 81, 21, 101, 14, 6, 82, 45, 67, 121, 5, 93, 6, 25, 109, 50, 13, 110, 38, 62, 44, 117, 0, 87, 79,
  97, 13, 10, 16, 98, 16, 82, 68, 39, 0, 124, 73, 115, 76, 53, 79, 114, 120, 124, 109, 42, 96, 119, 63, 84, 94, 119,
  79, 75, 56, 83, 51, 20, 74, 100, 45, 8, 13, 23, 77, 3, 81, 15, 61, 48, 103, 29, 68, 102, 58, 103, 104, 104, 57, 38,
  68, 57, 79, 11, 121, 46, 121, 28, 112, 117, 110, 13, 17, 63, 115, 68, 113, 4, 99, 70, 42, 26, 3, 50, 66, 11, 125,
  23, 116, 6, 96, 43, 20, 117, 110, 123, 113, 8, 61, 48, 56, 43, 84]]

def R2 : GenMat toy :=
  #v[#v[1, 0, 70, 51, 126, 73, 60, 4, 8, 6, 122, 94, 9, 60, 13, 15, 88, 45, 114, 121, 12, 47, 55, 80, 89, 42, 73, 30,
  19, 116, 72, 17, 123, 2, 94, 105, 103, 65, 18, 49, 105, 23, 75, 118, 32, 102, 35, 55, 46, 98, 88, 100, 77, 53, 54,
  46, 0, 121, 105, 35, 115, 42, 1, 56, 91, 101, 71, 12, 118, 3, 122, 45, 81, 43, 114, 112, 10, 42, 124, 7, 63, 8, 36,
  60, 51, 63, 118, 87, 65, 19, 66, 92, 17, 44, 32, 3, 111, 97, 4, 83, 103, 0, 42, 2, 83, 3, 11, 90, 55, 104, 7, 45,
  48, 118, 33, 66, 88, 20, 113, 25, 110, 46, 50, 61, 86, 93, 74, 10, 52, 80, 125, 8], #v[0, 1, 83, 70, 120, 35, 124,
  40, 60, 65, 122, 46, 38, 75, 19, 43, 102, 28, 108, 2, 8, 57, 105, 76, 67, 89, 49, 22, 50, 18, 78, 19, 23, 86, 8, 10,
  13, 102, 1, 114, 39, 44, 83, 102, 41, 14, 75, 16, 66, 14, 4, 119, 39, 1, 2, 108, 4, 100, 38, 22, 13, 56, 57, 57, 49,
  121, 32, 81, 52, 7, 95, 55, 23, 88, 40, 66, 112, 65, 10, 102, 97, 87, 49, 53, 69, 123, 50, 65, 91, 47, 49, 82, 77,
  97, 80, 96, 125, 30, 2, 105, 75, 55, 64, 68, 126, 100, 85, 10, 19, 28, 77, 60, 66, 69, 65, 15, 113, 54, 71, 92, 23,
  19, 31, 58, 1, 96, 4, 89, 64, 39, 107, 79]]

def piv2 : Vector Nat toy.N :=
  #v[1, 1, 0, 0, 0, 0, 0, 0, 0, 0, 0, 0, 0, 0, 0, 0, 0, 0, 0, 0, 0, 0, 0, 0, 0, 0, 0, 0, 0, 0, 0, 0, 0, 0, 0, 0, 0, 0,
  0, 0, 0, 0, 0, 0, 0, 0, 0, 0, 0, 0, 0, 0, 0, 0, 0, 0, 0, 0, 0, 0, 0, 0, 0, 0, 0, 0, 0, 0, 0, 0, 0, 0, 0, 0, 0, 0, 0,
  0, 0, 0, 0, 0, 0, 0, 0, 0, 0, 0, 0, 0, 0, 0, 0, 0, 0, 0, 0, 0, 0, 0, 0, 0, 0, 0, 0, 0, 0, 0, 0, 0, 0, 0, 0, 0, 0, 0,
  0, 0, 0, 0, 0, 0, 0, 0, 0, 0, 0, 0, 0, 0, 0, 0]

def U2 : NormIS toy :=
  #v[#v[1, 1, 1, 1, 1, 1, 1, 1, 1, 1, 1, 1, 1, 1, 1, 1, 1, 1, 1, 1, 1, 1, 1, 1, 1, 1, 1, 1, 1, 1, 1, 1, 1, 1, 1, 1, 1,
  1, 1, 1, 1, 1, 1, 1, 1, 1, 1, 1, 1, 1, 1, 1, 1, 1, 0, 1, 1, 1, 1, 1, 1, 1, 1, 1, 1, 1, 1, 1, 1, 1, 1, 1, 1, 1, 1, 1,
  1, 1, 1, 1, 1, 1, 1, 1, 1, 1, 1, 1, 1, 1, 1, 1, 1, 1, 1, 1, 1, 1, 1, 0, 1, 1, 1, 1, 1, 1, 1, 1, 1, 1, 1, 1, 1, 1, 1,
  1, 1, 1, 1, 1, 1, 1, 1, 1, 1, 1, 1, 1, 1, 1], #v[3, 96, 7, 124, 19, 10, 71, 32, 1, 14, 103, 33, 21, 96, 56, 74, 21,
  42, 43, 112, 25, 20, 35, 114, 72, 60, 16, 33, 54, 31, 26, 43, 19, 115, 100, 68, 120, 106, 4, 24, 79, 31, 37, 35,
  111, 28, 18, 109, 52, 5, 17, 12, 80, 41, 1, 68, 56, 124, 73, 86, 57, 94, 108, 10, 72, 102, 93, 87, 108, 100, 63, 5,
  36, 21, 62, 59, 39, 69, 60, 122, 19, 3, 91, 8, 65, 46, 103, 76, 45, 92, 12, 109, 66, 32, 16, 126, 64, 64, 108, 1,
  62, 34, 26, 118, 77, 113, 65, 54, 11, 86, 49, 77, 52, 6, 72, 117, 4, 24, 36, 86, 120, 53, 96, 42, 79, 47, 11, 37,
  10, 121]]

def Q2 : Monomial toy :=
  ⟨#v[77, 6, 118, 90, 51, 119, 42, 110, 115, 66, 13, 126, 50, 34, 46, 90, 115, 84, 58, 36, 76, 23, 103, 55, 123, 89,
  66, 97, 76, 84, 102, 56, 36, 35, 93, 44, 98, 99, 21, 75, 79, 34, 94, 88, 13, 36, 66, 96, 72, 97, 47, 18, 107, 35,
  102, 20, 55, 80, 91, 103, 89, 87, 81, 44, 95, 88, 22, 5, 60, 20, 5, 58, 111, 73, 15, 80, 126, 54, 16, 63, 66, 5, 10,
  101, 46, 6, 114, 89, 18, 73, 94, 63, 21, 5, 113, 29, 4, 38, 113, 98, 25, 16, 62, 88, 10, 50, 29, 49, 41, 27, 1, 110,
  80, 102, 28, 53, 8, 55, 105, 91, 49, 10, 97, 21, 84, 71, 93, 95, 40, 17, 110, 3], #v[31, 14, 80, 58, 113, 55, 2, 9,
  82, 114, 43, 39, 47, 70, 56, 20, 108, 116, 50, 4, 103, 98, 95, 26, 85, 51, 66, 13, 21, 19, 88, 74, 48, 107, 36, 53,
  83, 67, 28, 33, 6, 16, 49, 121, 12, 122, 106, 24, 99, 76, 104, 96, 22, 45, 41, 35, 65, 59, 60, 90, 93, 73, 3, 126,
  29, 44, 129, 68, 111, 100, 86, 101, 131, 89, 7, 62, 40, 123, 30, 11, 5, 27, 128, 118, 32, 91, 63, 37, 75, 64, 38,
  94, 130, 57, 69, 79, 15, 42, 52, 87, 61, 109, 71, 105, 127, 110, 78, 10, 46, 17, 92, 120, 84, 8, 34, 1, 0, 23, 72,
  18, 25, 125, 112, 117, 77, 102, 124, 81, 119, 97, 115, 54]⟩

def V2 : NormIS toy :=
  #v[#v[0, 0, 1, 1, 1, 1, 1, 1, 1, 1, 1, 1, 1, 1, 1, 1, 1, 1, 1, 1, 1, 1, 1, 1, 1, 1, 1, 1, 1, 1, 1, 1, 1, 1, 1, 1, 1,
  1, 1, 1, 1, 1, 1, 1, 1, 1, 1, 1, 1, 1, 1, 1, 1, 1, 1, 1, 1, 1, 1, 1, 1, 1, 1, 1, 1, 1, 1, 1, 1, 1, 1, 1, 1, 1, 1, 1,
  1, 1, 1, 1, 1, 1, 1, 1, 1, 1, 1, 1, 1, 1, 1, 1, 1, 1, 1, 1, 1, 1, 1, 1, 1, 1, 1, 1, 1, 1, 1, 1, 1, 1, 1, 1, 1, 1, 1,
  1, 1, 1, 1, 1, 1, 1, 1, 1, 1, 1, 1, 1, 1, 1], #v[1, 1, 1, 3, 3, 4, 4, 5, 5, 6, 7, 8, 10, 10, 10, 11, 11, 12, 12, 14,
  16, 16, 17, 18, 19, 19, 19, 20, 21, 21, 21, 24, 24, 25, 26, 26, 28, 31, 31, 32, 32, 33, 33, 34, 35, 35, 36, 36, 37,
  37, 39, 41, 42, 42, 43, 43, 45, 46, 47, 49, 52, 52, 53, 54, 54, 56, 56, 57, 59, 60, 60, 62, 62, 63, 64, 64, 65, 65,
  66, 68, 68, 69, 71, 72, 72, 72, 73, 74, 76, 77, 77, 79, 79, 80, 86, 86, 86, 87, 91, 92, 93, 94, 96, 96, 96, 100,
  100, 102, 103, 103, 106, 108, 108, 108, 109, 109, 111, 112, 113, 114, 115, 117, 118, 120, 120, 121, 122, 124, 124,
  126]]

def act2 : MonoAction toy :=
  ⟨#v[8, 53], #v[116, 115]⟩

def h3 : Inc :=
  ⟨#v[7218488673594374994, 12585340244155115232, 598359628184619701, 7044429374278556011, 5336031984827936624,
  15556135493762706086, 17084615662876896581, 13601379569154963190, 13474401552575337213, 14421707557087349527,
  169815252961478341, 6004059637153544148, 11245254266856123444, 5525208006212957110, 17489755871834057295,
  9056850868192984086, 14014221659037207816, 6323670615297074858, 12246730078859208878, 14679989951777395597,
  17839543705615553284, 17871146631440985513, 4133084136991004591, 5907302747347238187, 7995156881541791311], 100⟩

def h4 : Inc :=
  ⟨#v[7218488673594374994, 12585340244155115232, 598359628184619701, 7044429374278556011, 5336031984827936624,
  15556135493762706086, 17084615662876896581, 13601379569154963190, 13474401552575337213, 14421707557087349527,
  169815252961478341, 6004059637153544148, 15563792068498664500, 6851974361027530258, 13351625935576002339,
  7929155495682785714, 14014221387378542692, 6323670615297074858, 12246730078859208878, 14679989951777395597,
  17839543705615553284, 17871146631440985513, 4133084136991004591, 5907302747347238187, 7995156881541791311], 133⟩

def h5 : Inc :=
  ⟨#v[14780357367922849313, 12795370075710019938, 12186723204405614386, 15595173119361554696, 7008660321362480354,
  15617379342051820270, 16927225961064762131, 16374806092112469856, 6432621623217027247, 9576202065328396043,
  12381609892607049194, 12307022832852695461, 17107868513022817852, 14986874578077797225, 1373507418819383441,
  14650600899084965808, 14617480873303720167, 15952240582651255860, 13992406736946684912, 10050333779372340887,
  6788267019515916784, 5369178638254733227, 3063164696695365772, 1546548028468971446, 16110557005244353416], 29⟩

def digest : Bytes :=
  [105, 72, 146, 91, 109, 14, 100, 81, 35, 107, 4, 219, 12, 239, 159, 213, 169, 204, 86, 24, 143, 25, 237, 59, 108,
  170, 58, 61, 42, 200, 166, 76]

def fws : Vector Nat toy.T :=
  #v[0, 1, 0]

def storage : Vector UInt8 toy.storageLen :=
  #v[202, 142, 27, 192, 251, 142, 24, 246, 75, 255, 158, 154, 99, 87, 108, 188, 142, 12, 113, 53, 83, 207, 177, 115,
  181, 226, 3, 167, 5, 188, 248, 191, 0, 0, 0, 0, 0, 0, 0, 0, 0, 0, 0, 0, 0, 0, 0, 0, 0, 0, 0, 0, 0, 0, 0, 0, 0, 0, 0,
  0, 0, 0, 0, 0, 0]

def num : Nat :=
  2

def resp : Vector (Vector UInt8 toy.monoBytes) toy.W :=
  #v[#v[61, 100, 235, 53]]

def emitted : Nat :=
  1

def storage' : Vector UInt8 toy.storageLen :=
  #v[202, 142, 27, 192, 251, 142, 24, 246, 75, 255, 158, 154, 99, 87, 108, 188, 142, 12, 113, 53, 83, 207, 177, 115,
  181, 226, 3, 167, 5, 188, 248, 191, 2, 0, 0, 0, 0, 0, 0, 0, 0, 0, 0, 0, 0, 0, 0, 0, 0, 0, 0, 0, 0, 0, 0, 0, 0, 0, 0,
  0, 0, 0, 0, 0, 0]

theorem rng0_eq : initCsprng toy seed = rng0 :=
  by decide +kernel

theorem sk_eq : csprngBytes toy toy.skSeedLen rng0 = (sk, rng1) :=
  by decide +kernel

theorem seeds_eq : privateSeeds toy sk = .ok seeds := of_returns (by decide +kernel)

theorem g0_eq : csprngBytes toy toy.seedLen rng1 = (g0, rng2) :=
  by decide +kernel

theorem G0_eq : expandG0 100 stale g0 = .ok G0 := of_returns (by decide +kernel)

theorem seed0_eq : rd seeds 0 = .ok (g seeds 0) :=
  rfl

theorem Qinv_eq : monomialSeedExpandPrikey 100 stale.mono (g seeds 0).toList = .ok Qinv := of_returns (by decide +kernel)

theorem Qm_eq : monomialInv stale.mono' Qinv = .ok Qm := of_returns (by decide +kernel)

theorem Mk_eq : generatorMonomialMul stale.gen G0 Qm = .ok Mk := of_returns (by decide +kernel)

theorem Rk_eq : generatorRREF Mk (Vector.replicate toy.N 0) = .ok (okk, Rk, pivk) := of_returns (by decide +kernel)

theorem code_eq : compressRref (p := toy) (.replicate _ 99) Rk pivk = .ok code := of_returns (by decide +kernel)

end ToyRun
end LESS
