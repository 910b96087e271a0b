import Verif.Model.ByteOrder
import Verif.Proofs.ToyRun
/-!
# The small run on a big-endian machine

The signature of `Proofs/ToyRun`, made on a little-endian machine, as a big-endian machine checks it, and the keys such a machine
makes from the same random bytes.  The literals were computed by running the model; every step is checked by the kernel.
-/
namespace LESS
namespace BigRun
open ToyRun (of_returns stale seeds g0 salt msg storage')

def fws : Vector Nat toy.T :=
  #v[0, 1, 0]

def tree : TreeBuf toy :=
  #v[0, 0, 0, 0, 0, 0, 0, 0, 0, 0, 0, 0, 0, 0, 0, 0, 0, 0, 0, 0, 0, 0, 0, 0, 0, 0, 0, 0, 0, 0, 0, 0, 202, 142, 27,
  192, 251, 142, 24, 246, 75, 255, 158, 154, 99, 87, 108, 188, 142, 12, 113, 53, 83, 207, 177, 115, 181, 226, 3, 167,
  5, 188, 248, 191, 0, 0, 0, 0, 0, 0, 0, 0, 0, 0, 0, 0, 0, 0, 0, 0, 112, 216, 234, 11, 62, 100, 233, 34, 37, 120, 251,
  181, 69, 102, 214, 186, 211, 199, 179, 28, 173, 4, 125, 164, 105, 23, 27, 252, 75, 5, 47, 48]

def used : Nat :=
  2

def sf : RrefMat toy :=
  ⟨#v[#v[21, 48, 41, 47, 105, 87, 33, 12, 28, 119, 83, 51, 17, 118, 37, 49, 94, 82, 119, 91, 44, 50, 36, 53, 39, 106,
  98, 118, 40, 39, 8, 71, 7, 77, 92, 49, 62, 24, 117, 83, 65, 20, 80, 116, 49, 8, 67, 54, 110, 47, 84, 64, 53, 114,
  24, 111, 60, 116, 117, 27, 38, 54, 118, 5, 14, 62, 46, 113, 39, 20, 29, 37, 90, 30, 95, 53, 69, 109, 14, 95, 93,
  100, 71, 115, 43, 48, 72, 56, 97, 32, 65, 21, 29, 8, 110, 9, 69, 41, 121, 106, 88, 46, 114, 38, 83, 23, 19, 105, 86,
  90, 125, 31, 122, 4, 78, 68, 45, 116, 83, 49, 92, 41, 116, 43, 96, 110, 45, 92, 77, 117], #v[0, 41, 119, 94, 106,
  103, 92, 27, 25, 41, 20, 93, 35, 82, 114, 35, 8, 111, 97, 33, 4, 113, 12, 10, 82, 27, 60, 79, 117, 7, 29, 10, 68,
  105, 55, 56, 27, 14, 81, 7, 35, 26, 38, 42, 9, 7, 44, 41, 29, 15, 117, 43, 109, 78, 70, 118, 101, 16, 7, 46, 121,
  74, 105, 78, 66, 80, 47, 97, 29, 88, 81, 7, 41, 85, 42, 18, 62, 62, 35, 42, 90, 21, 50, 34, 15, 119, 117, 120, 106,
  78, 44, 27, 73, 113, 9, 123, 26, 39, 44, 10, 49, 95, 60, 19, 82, 32, 30, 71, 99, 16, 31, 93, 11, 110, 15, 43, 72,
  41, 80, 110, 95, 74, 98, 56, 1, 13, 55, 92, 46, 27]], #v[2, 3, 4, 5, 6, 7, 8, 9, 10, 11, 12, 13, 14, 15, 16, 17, 18,
  19, 20, 21, 22, 23, 24, 25, 26, 27, 28, 29, 30, 31, 32, 33, 34, 35, 36, 37, 38, 39, 40, 41, 42, 43, 44, 45, 46, 47,
  48, 49, 50, 51, 52, 53, 54, 55, 56, 57, 58, 59, 60, 61, 62, 63, 64, 65, 66, 67, 68, 69, 70, 71, 72, 73, 74, 75, 76,
  77, 78, 79, 80, 81, 82, 83, 84, 85, 86, 87, 88, 89, 90, 91, 92, 93, 94, 95, 96, 97, 98, 99, 100, 101, 102, 103, 104,
  105, 106, 107, 108, 109, 110, 111, 112, 113, 114, 115, 116, 117, 118, 119, 120, 121, 122, 123, 124, 125, 126, 127,
  128, 129, 130, 131]⟩

def G : GenMat toy :=
  #v[#v[1, 0, 21, 48, 41, 47, 105, 87, 33, 12, 28, 119, 83, 51, 17, 118, 37, 49, 94, 82, 119, 91, 44, 50, 36, 53, 39,
  106, 98, 118, 40, 39, 8, 71, 7, 77, 92, 49, 62, 24, 117, 83, 65, 20, 80, 116, 49, 8, 67, 54, 110, 47, 84, 64, 53,
  114, 24, 111, 60, 116, 117, 27, 38, 54, 118, 5, 14, 62, 46, 113, 39, 20, 29, 37, 90, 30, 95, 53, 69, 109, 14, 95,
  93, 100, 71, 115, 43, 48, 72, 56, 97, 32, 65, 21, 29, 8, 110, 9, 69, 41, 121, 106, 88, 46, 114, 38, 83, 23, 19, 105,
  86, 90, 125, 31, 122, 4, 78, 68, 45, 116, 83, 49, 92, 41, 116, 43, 96, 110, 45, 92, 77, 117], #v[0, 1, 0, 41, 119,
  94, 106, 103, 92, 27, 25, 41, 20, 93, 35, 82, 114, 35, 8, 111, 97, 33, 4, 113, 12, 10, 82, 27, 60, 79, 117, 7, 29,
  10, 68, 105, 55, 56, 27, 14, 81, 7, 35, 26, 38, 42, 9, 7, 44, 41, 29, 15, 117, 43, 109, 78, 70, 118, 101, 16, 7, 46,
  121, 74, 105, 78, 66, 80, 47, 97, 29, 88, 81, 7, 41, 85, 42, 18, 62, 62, 35, 42, 90, 21, 50, 34, 15, 119, 117, 120,
  106, 78, 44, 27, 73, 113, 9, 123, 26, 39, 44, 10, 49, 95, 60, 19, 82, 32, 30, 71, 99, 16, 31, 93, 11, 110, 15, 43,
  72, 41, 80, 110, 95, 74, 98, 56, 1, 13, 55, 92, 46, 27]]

def Q0 : Monomial toy :=
  ⟨#v[79, 122, 29, 62, 66, 113, 41, 99, 84, 101, 68, 50, 66, 46, 115, 34, 103, 108, 28, 62, 120, 2, 94, 43, 25, 38,
  58, 9, 125, 9, 19, 103, 89, 108, 84, 13, 74, 48, 106, 108, 24, 107, 84, 102, 80, 107, 34, 84, 59, 4, 23, 43, 57, 50,
  123, 24, 126, 68, 50, 20, 91, 122, 7, 23, 26, 34, 27, 40, 126, 115, 68, 98, 120, 10, 31, 53, 99, 33, 54, 66, 4, 117,
  41, 20, 100, 8, 77, 60, 33, 43, 125, 12, 40, 119, 105, 93, 100, 38, 124, 125, 71, 80, 12, 102, 51, 110, 31, 53, 63,
  87, 21, 120, 60, 64, 24, 98, 28, 24, 66, 91, 41, 88, 46, 3, 54, 41, 83, 93, 116, 55, 80, 28], #v[67, 103, 119, 109,
  49, 59, 44, 24, 100, 75, 45, 55, 15, 3, 110, 70, 54, 11, 21, 117, 77, 52, 124, 111, 131, 8, 9, 89, 36, 125, 37, 130,
  25, 129, 71, 62, 51, 34, 41, 107, 106, 115, 13, 56, 94, 43, 14, 87, 74, 102, 22, 126, 127, 80, 68, 53, 63, 72, 38,
  92, 39, 99, 50, 18, 23, 10, 65, 83, 82, 40, 60, 116, 32, 78, 66, 0, 105, 35, 81, 112, 79, 58, 86, 128, 16, 122, 84,
  113, 108, 101, 4, 95, 6, 17, 96, 12, 118, 93, 88, 114, 104, 121, 42, 90, 46, 97, 19, 123, 28, 47, 2, 27, 73, 57, 26,
  33, 61, 7, 69, 5, 30, 76, 64, 91, 98, 1, 20, 29, 31, 120, 85, 48]⟩

def M0 : GenMat toy :=
  #v[#v[66, 112, 28, 60, 60, 15, 60, 108, 109, 103, 43, 85, 109, 126, 15, 17, 115, 86, 99, 33, 94, 92, 117, 20, 104,
  77, 7, 5, 54, 70, 101, 13, 51, 11, 66, 98, 58, 125, 79, 106, 41, 95, 40, 93, 114, 126, 99, 118, 101, 39, 12, 77, 55,
  69, 1, 108, 8, 79, 66, 104, 112, 25, 112, 103, 41, 124, 123, 79, 42, 49, 75, 80, 55, 7, 16, 69, 121, 56, 116, 56,
  25, 43, 81, 67, 9, 64, 3, 37, 47, 65, 120, 123, 34, 88, 50, 3, 124, 116, 41, 119, 105, 122, 89, 0, 82, 7, 14, 52,
  90, 55, 50, 118, 82, 86, 45, 118, 55, 4, 78, 101, 107, 98, 31, 76, 72, 46, 116, 89, 95, 48, 80, 11], #v[60, 10, 47,
  87, 42, 48, 109, 16, 126, 57, 112, 97, 95, 19, 52, 50, 47, 38, 51, 2, 83, 97, 32, 63, 37, 41, 10, 15, 112, 66, 105,
  30, 68, 112, 21, 86, 7, 64, 97, 2, 106, 68, 80, 49, 28, 49, 12, 81, 121, 107, 85, 6, 66, 94, 58, 18, 112, 110, 88,
  81, 67, 39, 95, 57, 52, 4, 1, 0, 72, 53, 121, 124, 23, 82, 56, 60, 28, 83, 70, 13, 118, 46, 80, 25, 12, 124, 7, 80,
  49, 116, 38, 95, 66, 102, 119, 47, 45, 58, 85, 24, 108, 80, 37, 122, 76, 94, 39, 115, 51, 2, 88, 33, 28, 28, 49,
  114, 115, 24, 11, 0, 107, 38, 18, 45, 122, 76, 10, 65, 39, 64, 86, 46]]

def R0 : GenMat toy :=
  #v[#v[1, 0, 45, 0, 13, 3, 115, 79, 111, 70, 108, 124, 24, 117, 47, 82, 48, 75, 17, 10, 36, 6, 67, 120, 69, 42, 119,
  117, 104, 54, 33, 2, 106, 85, 80, 56, 79, 12, 80, 122, 112, 90, 115, 78, 1, 66, 96, 63, 82, 66, 7, 38, 71, 16, 95,
  101, 63, 96, 55, 45, 119, 62, 46, 70, 26, 22, 24, 29, 84, 11, 103, 88, 106, 22, 56, 23, 10, 96, 12, 88, 42, 17, 77,
  89, 71, 13, 99, 93, 37, 17, 28, 42, 44, 74, 67, 31, 92, 7, 8, 36, 53, 39, 86, 72, 125, 27, 66, 80, 78, 2, 107, 43,
  105, 92, 107, 45, 102, 124, 58, 21, 99, 36, 2, 121, 92, 115, 114, 13, 25, 40, 51, 121], #v[0, 1, 103, 123, 104, 63,
  121, 61, 7, 81, 49, 15, 56, 100, 28, 21, 85, 11, 119, 118, 59, 88, 33, 61, 85, 95, 49, 125, 73, 89, 3, 118, 82, 60,
  119, 79, 22, 36, 25, 81, 126, 51, 80, 83, 73, 28, 111, 100, 117, 110, 30, 52, 114, 15, 20, 107, 65, 70, 9, 81, 42,
  51, 51, 81, 27, 97, 72, 80, 62, 79, 118, 94, 14, 54, 76, 122, 19, 80, 62, 121, 90, 55, 54, 40, 7, 36, 29, 85, 75,
  62, 39, 75, 22, 125, 29, 60, 24, 40, 24, 15, 23, 28, 110, 12, 45, 76, 27, 103, 7, 39, 78, 12, 84, 35, 36, 97, 98,
  122, 123, 1, 39, 118, 66, 104, 19, 105, 79, 119, 19, 122, 109, 66]]

def piv0 : Vector Nat toy.N :=
  #v[1, 1, 0, 0, 0, 0, 0, 0, 0, 0, 0, 0, 0, 0, 0, 0, 0, 0, 0, 0, 0, 0, 0, 0, 0, 0, 0, 0, 0, 0, 0, 0, 0, 0, 0, 0, 0, 0,
  0, 0, 0, 0, 0, 0, 0, 0, 0, 0, 0, 0, 0, 0, 0, 0, 0, 0, 0, 0, 0, 0, 0, 0, 0, 0, 0, 0, 0, 0, 0, 0, 0, 0, 0, 0, 0, 0, 0,
  0, 0, 0, 0, 0, 0, 0, 0, 0, 0, 0, 0, 0, 0, 0, 0, 0, 0, 0, 0, 0, 0, 0, 0, 0, 0, 0, 0, 0, 0, 0, 0, 0, 0, 0, 0, 0, 0, 0,
  0, 0, 0, 0, 0, 0, 0, 0, 0, 0, 0, 0, 0, 0, 0, 0]

def U0 : NormIS toy :=
  #v[#v[1, 0, 1, 1, 1, 1, 1, 1, 1, 1, 1, 1, 1, 1, 1, 1, 1, 1, 1, 1, 1, 1, 1, 1, 1, 1, 1, 1, 1, 1, 1, 1, 1, 1, 1, 1, 1,
  1, 1, 1, 1, 1, 1, 1, 1, 1, 1, 1, 1, 1, 1, 1, 1, 1, 1, 1, 1, 1, 1, 1, 1, 1, 1, 1, 1, 1, 1, 1, 1, 1, 1, 1, 1, 1, 1, 1,
  1, 1, 1, 1, 1, 1, 1, 1, 1, 1, 1, 1, 1, 1, 1, 1, 1, 1, 1, 1, 1, 1, 1, 1, 1, 1, 1, 1, 1, 1, 1, 1, 1, 1, 1, 1, 1, 1, 1,
  1, 1, 1, 1, 1, 1, 1, 1, 1, 1, 1, 1, 1, 1, 1], #v[118, 1, 8, 21, 64, 49, 71, 32, 91, 122, 87, 117, 6, 8, 15, 12, 7,
  88, 111, 57, 82, 82, 27, 96, 105, 51, 41, 4, 104, 59, 111, 53, 38, 108, 26, 3, 40, 60, 17, 81, 78, 32, 73, 62, 21,
  54, 99, 44, 95, 115, 66, 120, 47, 118, 124, 51, 111, 78, 90, 93, 37, 32, 45, 91, 3, 121, 34, 88, 48, 79, 84, 14, 83,
  55, 40, 22, 111, 49, 111, 63, 4, 19, 111, 120, 67, 61, 105, 41, 15, 29, 64, 24, 99, 47, 61, 42, 3, 11, 22, 17, 19,
  106, 41, 111, 87, 114, 18, 83, 85, 18, 77, 126, 49, 84, 118, 44, 70, 121, 112, 95, 33, 25, 43, 23, 33, 58, 16, 111,
  37, 116]]

def act0 : MonoAction toy :=
  ⟨#v[53, 41], #v[75, 125]⟩

def V0 : NormIS toy :=
  #v[#v[0, 1, 1, 1, 1, 1, 1, 1, 1, 1, 1, 1, 1, 1, 1, 1, 1, 1, 1, 1, 1, 1, 1, 1, 1, 1, 1, 1, 1, 1, 1, 1, 1, 1, 1, 1, 1,
  1, 1, 1, 1, 1, 1, 1, 1, 1, 1, 1, 1, 1, 1, 1, 1, 1, 1, 1, 1, 1, 1, 1, 1, 1, 1, 1, 1, 1, 1, 1, 1, 1, 1, 1, 1, 1, 1, 1,
  1, 1, 1, 1, 1, 1, 1, 1, 1, 1, 1, 1, 1, 1, 1, 1, 1, 1, 1, 1, 1, 1, 1, 1, 1, 1, 1, 1, 1, 1, 1, 1, 1, 1, 1, 1, 1, 1, 1,
  1, 1, 1, 1, 1, 1, 1, 1, 1, 1, 1, 1, 1, 1, 1], #v[1, 3, 3, 3, 4, 4, 6, 7, 8, 8, 11, 12, 14, 15, 15, 16, 17, 17, 18,
  18, 19, 19, 21, 21, 22, 22, 23, 24, 25, 26, 27, 29, 32, 32, 32, 33, 33, 34, 37, 37, 38, 40, 40, 41, 41, 41, 42, 43,
  44, 44, 45, 47, 47, 48, 49, 49, 49, 51, 51, 53, 54, 55, 57, 58, 59, 60, 61, 61, 62, 63, 64, 64, 66, 67, 70, 71, 73,
  77, 78, 78, 79, 81, 82, 82, 83, 83, 84, 84, 85, 87, 87, 88, 88, 90, 91, 91, 93, 95, 95, 96, 99, 99, 104, 105, 105,
  106, 108, 111, 111, 111, 111, 111, 111, 111, 111, 112, 114, 115, 116, 117, 118, 118, 118, 120, 120, 121, 121, 122,
  124, 126]]

def h1 : Inc :=
  ⟨#v[15498251846099960911, 12305357391295443648, 3879293899938680507, 17383743774578797414, 10410331878196045167,
  8940875723370523848, 16298873056205555420, 9876847564749186509, 933883110470060529, 1556777905740852098,
  17089480494439942852, 17849168220271043717, 2340695262623606143, 15830077292046905076, 9377916305884987297,
  10518402067502794839, 15165296980724556807, 6998164538025792360, 7718000428357025858, 3386677156005228018,
  9416556202487530178, 4113128287597140710, 5398709779519160416, 2064701008269625523, 10301409358787734168], 124⟩

def h2 : Inc :=
  ⟨#v[18050771640446014532, 9699415742070553276, 7962467054724110172, 350794038771015140, 7593284226096523891,
  15215520316695161733, 11452287621872111138, 2433138757993759448, 3738089789269726617, 17599928579721338498,
  11046782384819902952, 1087081618879654599, 14955470392519313280, 8424962905341137437, 17788641520765380723,
  7910260037781231016, 16735783571285818310, 7650549732030074975, 7718337922763572820, 13469919228108173431,
  759795000973318394, 14996556536510583150, 14377888866755824032, 4445769449791829304, 16126255943318572689], 112⟩

def Q2 : Monomial toy :=
  ⟨#v[23, 23, 78, 108, 23, 36, 79, 21, 13, 38, 109, 90, 68, 75, 110, 75, 80, 82, 29, 43, 57, 118, 50, 46, 66, 43, 6,
  3, 57, 47, 4, 63, 88, 48, 12, 102, 5, 74, 92, 15, 62, 18, 116, 16, 88, 69, 116, 67, 125, 61, 64, 15, 87, 93, 58, 19,
  28, 8, 29, 65, 26, 22, 77, 85, 106, 79, 34, 80, 105, 101, 121, 51, 67, 49, 32, 37, 8, 19, 78, 109, 16, 42, 82, 28,
  3, 40, 98, 75, 33, 43, 87, 50, 81, 108, 58, 53, 119, 105, 124, 41, 80, 24, 32, 82, 79, 86, 113, 93, 45, 47, 109, 37,
  7, 85, 36, 104, 74, 35, 4, 44, 16, 109, 73, 61, 90, 101, 30, 55, 71, 5, 84, 98], #v[129, 98, 94, 66, 68, 81, 28, 35,
  113, 104, 13, 38, 40, 105, 29, 90, 48, 73, 61, 59, 44, 122, 110, 5, 131, 55, 53, 46, 84, 24, 9, 115, 65, 126, 89,
  78, 103, 4, 34, 45, 12, 111, 80, 127, 0, 117, 99, 42, 26, 120, 25, 123, 114, 63, 79, 83, 77, 39, 86, 52, 95, 102,
  51, 27, 97, 121, 1, 54, 128, 33, 130, 7, 16, 106, 23, 2, 101, 112, 15, 93, 30, 100, 22, 21, 58, 56, 75, 19, 37, 72,
  116, 67, 10, 82, 109, 3, 107, 124, 108, 119, 11, 76, 71, 91, 87, 31, 49, 62, 18, 6, 60, 17, 32, 57, 36, 43, 96, 14,
  88, 47, 74, 125, 85, 69, 20, 50, 41, 70, 64, 92, 118, 8]⟩

def M2 : GenMat toy :=
  #v[#v[55, 95, 94, 43, 70, 14, 109, 4, 36, 33, 58, 28, 15, 4, 94, 48, 38, 28, 93, 44, 26, 6, 6, 86, 85, 55, 120, 18,
  40, 92, 97, 93, 113, 110, 116, 49, 74, 90, 42, 126, 56, 86, 28, 35, 52, 106, 64, 24, 39, 108, 25, 5, 47, 107, 7,
  120, 28, 95, 86, 97, 103, 59, 107, 110, 20, 69, 104, 76, 54, 88, 81, 22, 122, 81, 58, 23, 4, 37, 107, 26, 47, 41,
  109, 7, 125, 112, 89, 116, 53, 84, 87, 89, 79, 70, 114, 121, 57, 62, 0, 96, 53, 125, 86, 79, 75, 15, 35, 9, 47, 31,
  41, 97, 118, 48, 69, 44, 57, 3, 118, 30, 119, 14, 70, 70, 56, 7, 106, 66, 4, 23, 20, 90], #v[42, 85, 97, 20, 80,
  118, 35, 43, 106, 87, 8, 91, 69, 58, 108, 10, 93, 84, 80, 35, 57, 80, 14, 42, 30, 78, 39, 67, 119, 40, 52, 110, 90,
  18, 71, 4, 15, 51, 7, 55, 90, 30, 88, 10, 68, 83, 81, 26, 103, 122, 68, 46, 24, 111, 50, 49, 90, 31, 23, 74, 123,
  105, 55, 62, 95, 12, 110, 90, 70, 69, 80, 44, 80, 76, 10, 73, 113, 55, 42, 99, 123, 82, 122, 85, 118, 77, 8, 41, 34,
  54, 54, 43, 79, 27, 0, 55, 94, 81, 23, 28, 113, 82, 123, 21, 10, 117, 89, 55, 49, 43, 73, 126, 88, 53, 19, 60, 78,
  104, 54, 75, 88, 66, 84, 98, 88, 52, 99, 35, 109, 0, 80, 30]]

def R2 : GenMat toy :=
  #v[#v[1, 0, 39, 124, 94, 79, 68, 14, 63, 94, 58, 116, 123, 49, 107, 88, 53, 15, 95, 21, 101, 36, 9, 41, 24, 85, 41,
  43, 7, 55, 28, 38, 110, 102, 75, 63, 110, 18, 20, 97, 102, 13, 109, 104, 10, 86, 120, 93, 23, 28, 53, 10, 47, 98,
  82, 22, 29, 1, 39, 37, 43, 104, 52, 120, 44, 31, 44, 9, 35, 82, 100, 30, 30, 6, 105, 2, 8, 60, 64, 72, 24, 79, 17,
  79, 1, 6, 98, 5, 89, 91, 58, 95, 35, 55, 16, 25, 58, 15, 96, 110, 104, 44, 103, 69, 45, 108, 119, 114, 63, 98, 58,
  116, 8, 19, 5, 37, 63, 125, 98, 99, 124, 0, 61, 9, 55, 2, 81, 33, 41, 1, 9, 96], #v[0, 1, 76, 57, 80, 52, 46, 16, 0,
  101, 82, 8, 76, 96, 50, 118, 78, 13, 81, 126, 18, 22, 51, 40, 114, 65, 31, 117, 110, 48, 57, 114, 126, 29, 34, 75,
  28, 44, 41, 8, 118, 103, 119, 7, 87, 81, 109, 44, 78, 13, 3, 21, 119, 50, 105, 42, 45, 94, 108, 5, 31, 38, 90, 52,
  75, 67, 120, 25, 118, 35, 86, 35, 16, 107, 8, 94, 93, 98, 63, 115, 12, 71, 2, 80, 101, 110, 122, 1, 64, 126, 93, 97,
  18, 9, 16, 63, 86, 4, 38, 67, 62, 36, 91, 5, 75, 78, 5, 25, 83, 100, 23, 113, 18, 51, 62, 90, 43, 56, 6, 70, 7, 71,
  59, 49, 65, 31, 124, 11, 114, 1, 122, 59]]

def piv2 : Vector Nat toy.N :=
  #v[1, 1, 0, 0, 0, 0, 0, 0, 0, 0, 0, 0, 0, 0, 0, 0, 0, 0, 0, 0, 0, 0, 0, 0, 0, 0, 0, 0, 0, 0, 0, 0, 0, 0, 0, 0, 0, 0,
  0, 0, 0, 0, 0, 0, 0, 0, 0, 0, 0, 0, 0, 0, 0, 0, 0, 0, 0, 0, 0, 0, 0, 0, 0, 0, 0, 0, 0, 0, 0, 0, 0, 0, 0, 0, 0, 0, 0,
  0, 0, 0, 0, 0, 0, 0, 0, 0, 0, 0, 0, 0, 0, 0, 0, 0, 0, 0, 0, 0, 0, 0, 0, 0, 0, 0, 0, 0, 0, 0, 0, 0, 0, 0, 0, 0, 0, 0,
  0, 0, 0, 0, 0, 0, 0, 0, 0, 0, 0, 0, 0, 0, 0, 0]

def U2 : NormIS toy :=
  #v[#v[1, 1, 1, 1, 1, 1, 1, 1, 1, 1, 1, 1, 1, 1, 1, 1, 1, 1, 1, 1, 1, 1, 1, 1, 1, 1, 1, 1, 1, 1, 1, 1, 1, 1, 1, 1, 1,
  1, 1, 1, 1, 1, 1, 1, 1, 1, 1, 1, 1, 1, 1, 1, 1, 1, 1, 1, 1, 1, 1, 1, 1, 1, 1, 1, 1, 1, 1, 1, 1, 1, 1, 1, 1, 1, 1, 1,
  1, 1, 1, 1, 1, 1, 1, 1, 1, 1, 1, 1, 1, 1, 1, 1, 1, 1, 1, 1, 1, 1, 1, 1, 1, 1, 1, 1, 1, 1, 1, 1, 1, 1, 1, 1, 1, 1, 1,
  1, 1, 1, 1, 0, 1, 1, 1, 1, 1, 1, 1, 1, 1, 1], #v[28, 108, 63, 73, 109, 110, 0, 97, 89, 57, 108, 116, 61, 10, 47, 94,
  57, 6, 97, 50, 48, 97, 100, 68, 72, 112, 52, 84, 61, 3, 15, 9, 14, 104, 88, 73, 110, 59, 41, 47, 71, 77, 123, 29,
  57, 51, 31, 5, 36, 91, 89, 99, 40, 25, 76, 94, 120, 7, 110, 37, 75, 47, 45, 80, 72, 31, 7, 98, 105, 107, 9, 39, 92,
  47, 91, 99, 126, 21, 64, 107, 30, 83, 101, 103, 79, 51, 5, 60, 87, 120, 113, 111, 1, 33, 19, 68, 93, 11, 47, 47, 65,
  24, 44, 36, 47, 86, 88, 71, 42, 59, 34, 123, 114, 126, 41, 99, 83, 61, 40, 1, 78, 76, 82, 79, 47, 85, 105, 1, 70,
  121]]

def act2 : MonoAction toy :=
  ⟨#v[88, 34], #v[44, 66]⟩

def V2 : NormIS toy :=
  #v[#v[0, 1, 1, 1, 1, 1, 1, 1, 1, 1, 1, 1, 1, 1, 1, 1, 1, 1, 1, 1, 1, 1, 1, 1, 1, 1, 1, 1, 1, 1, 1, 1, 1, 1, 1, 1, 1,
  1, 1, 1, 1, 1, 1, 1, 1, 1, 1, 1, 1, 1, 1, 1, 1, 1, 1, 1, 1, 1, 1, 1, 1, 1, 1, 1, 1, 1, 1, 1, 1, 1, 1, 1, 1, 1, 1, 1,
  1, 1, 1, 1, 1, 1, 1, 1, 1, 1, 1, 1, 1, 1, 1, 1, 1, 1, 1, 1, 1, 1, 1, 1, 1, 1, 1, 1, 1, 1, 1, 1, 1, 1, 1, 1, 1, 1, 1,
  1, 1, 1, 1, 1, 1, 1, 1, 1, 1, 1, 1, 1, 1, 1], #v[1, 0, 1, 1, 3, 5, 5, 6, 7, 7, 9, 9, 10, 11, 14, 15, 19, 21, 24, 25,
  28, 29, 30, 31, 31, 33, 34, 36, 36, 37, 39, 40, 40, 41, 41, 42, 44, 45, 47, 47, 47, 47, 47, 47, 47, 47, 48, 50, 51,
  51, 52, 57, 57, 57, 59, 59, 60, 61, 61, 61, 63, 64, 65, 68, 68, 70, 71, 71, 72, 72, 73, 73, 75, 76, 76, 77, 78, 79,
  79, 80, 82, 83, 83, 84, 85, 86, 87, 88, 88, 89, 89, 91, 91, 92, 93, 94, 94, 97, 97, 97, 98, 99, 99, 99, 100, 101,
  103, 104, 105, 105, 107, 107, 108, 108, 109, 110, 110, 110, 111, 112, 113, 114, 116, 120, 120, 121, 123, 123, 126,
  126]]

def h3 : Inc :=
  ⟨#v[9764285981375642738, 8860509629304887384, 10039282984991160613, 15443225234495857634, 9253563071056108364,
  16555241043093594539, 15507930263621371390, 947731961572329055, 17745859135622851096, 15262729528902167172,
  17280665553394132000, 7830740982293410903, 7153773527653976534, 6810425647721880804, 6990125168556814797,
  6802001668520996504, 13359222447017272742, 12652070189605874290, 16725515520115726391, 8650995500209471495,
  17932383110483027411, 4471689766886169153, 8151213838780377271, 12136082180993586003, 15485501749754933338], 100⟩

def h4 : Inc :=
  ⟨#v[9764285981375642738, 8860509629304887384, 10039282984991160613, 15443225234495857634, 9253563071056108364,
  16555241043093594539, 15507930263621371390, 947731961572329055, 17745859135622851096, 15262729528902167172,
  17280665553394132000, 7830740982293410903, 2933486435802057174, 5564512915341107520, 3094941127011628193,
  5611469133504320316, 13359222725118091466, 12652070189605874290, 16725515520115726391, 8650995500209471495,
  17932383110483027411, 4471689766886169153, 8151213838780377271, 12136082180993586003, 15485501749754933338], 133⟩

def h5 : Inc :=
  ⟨#v[15794198585806393291, 16794924669868718414, 16597750720815096898, 11014840220931581969, 15786579458946349822,
  12018407906174089168, 16961484463911332486, 323585401015940123, 5919882978626945441, 2310147479810781584,
  109812453311355774, 18299517742105682339, 18012487779456987502, 858048922524734289, 12109694903711572701,
  418770014697324155, 10969601917834514489, 17836493969370968250, 797944135970718620, 16477088730481935945,
  8721751492313614488, 3222859426855705372, 9535854974093850619, 12006080835573047591, 16507980000430417178], 29⟩

def digest : Bytes :=
  [175, 94, 247, 140, 105, 40, 102, 114, 233, 153, 120, 126, 7, 31, 206, 201, 157, 80, 212, 45, 240, 152, 74, 170,
  221, 115, 201, 26, 69, 195, 12, 237]

def Qinv : Monomial toy :=
  ⟨#v[73, 74, 66, 103, 117, 63, 5, 65, 94, 126, 22, 86, 86, 60, 37, 65, 71, 13, 120, 88, 80, 39, 73, 49, 38, 105, 82,
  89, 58, 65, 14, 5, 11, 11, 81, 50, 7, 117, 32, 78, 38, 104, 72, 67, 15, 56, 73, 63, 36, 34, 113, 31, 121, 48, 119,
  1, 25, 105, 18, 95, 119, 61, 35, 91, 38, 25, 41, 63, 115, 106, 79, 81, 23, 74, 74, 100, 113, 96, 28, 102, 50, 40,
  38, 86, 18, 73, 37, 2, 82, 92, 14, 67, 93, 38, 10, 104, 63, 17, 39, 69, 112, 54, 97, 108, 73, 126, 23, 19, 122, 117,
  30, 2, 26, 69, 91, 91, 76, 68, 124, 25, 90, 106, 39, 111, 104, 72, 35, 23, 86, 6, 76, 51], #v[9, 0, 107, 46, 129,
  131, 128, 109, 4, 57, 43, 3, 75, 48, 118, 40, 81, 54, 89, 15, 103, 116, 55, 68, 111, 123, 72, 71, 6, 120, 31, 112,
  114, 98, 52, 117, 122, 91, 11, 58, 94, 27, 110, 36, 22, 33, 69, 83, 49, 30, 86, 124, 16, 38, 76, 126, 17, 35, 32,
  42, 67, 47, 80, 19, 25, 77, 61, 97, 64, 130, 90, 45, 92, 5, 37, 34, 78, 13, 88, 115, 73, 100, 26, 44, 102, 99, 14,
  121, 29, 18, 51, 113, 62, 39, 66, 10, 63, 7, 104, 105, 87, 1, 2, 8, 125, 101, 59, 96, 65, 119, 70, 41, 12, 108, 28,
  24, 106, 85, 93, 79, 23, 21, 53, 127, 20, 82, 56, 74, 60, 84, 50, 95]⟩

def Qm : Monomial toy :=
  ⟨#v[115, 40, 55, 96, 50, 115, 46, 15, 20, 87, 11, 4, 44, 86, 103, 13, 21, 61, 29, 67, 11, 6, 17, 24, 67, 117, 117,
  11, 67, 79, 71, 118, 120, 93, 47, 75, 91, 115, 45, 117, 43, 64, 123, 52, 96, 69, 37, 25, 36, 60, 122, 118, 69, 114,
  88, 87, 98, 126, 57, 116, 96, 31, 56, 125, 74, 76, 89, 111, 70, 87, 72, 10, 79, 94, 116, 96, 111, 61, 9, 61, 98, 34,
  30, 125, 106, 99, 9, 110, 59, 18, 82, 38, 116, 42, 117, 5, 107, 125, 104, 87, 54, 126, 120, 27, 114, 81, 122, 102,
  81, 43, 30, 117, 51, 91, 104, 66, 114, 94, 103, 38, 43, 64, 109, 75, 41, 87, 1, 119, 51, 38, 6, 125], #v[1, 101,
  102, 11, 8, 73, 28, 97, 103, 0, 95, 38, 112, 77, 86, 19, 52, 56, 89, 63, 124, 121, 44, 120, 115, 64, 82, 41, 114,
  88, 49, 30, 58, 45, 75, 57, 43, 74, 53, 93, 15, 111, 59, 10, 83, 71, 3, 61, 13, 48, 130, 90, 34, 122, 17, 22, 126,
  9, 39, 106, 128, 66, 92, 96, 68, 108, 94, 60, 23, 46, 110, 27, 26, 80, 127, 12, 54, 65, 76, 119, 62, 16, 125, 47,
  129, 117, 50, 100, 78, 18, 70, 37, 72, 118, 40, 131, 107, 67, 33, 85, 81, 105, 84, 20, 98, 99, 116, 2, 113, 7, 42,
  24, 31, 91, 32, 79, 21, 35, 14, 109, 29, 87, 36, 25, 51, 104, 55, 123, 6, 4, 69, 5]⟩

def Mk : GenMat toy :=
  #v[#v[28, 115, 60, 35, 67, 20, 9, 70, 18, 16, 24, 36, 86, 126, 63, 78, 55, 92, 119, 10, 99, 2, 12, 45, 116, 27, 5,
  73, 4, 13, 30, 25, 115, 64, 81, 42, 122, 73, 95, 118, 91, 23, 40, 117, 113, 126, 52, 54, 65, 46, 6, 57, 15, 123, 4,
  96, 68, 60, 71, 121, 24, 73, 102, 33, 105, 58, 75, 109, 96, 81, 80, 3, 47, 71, 47, 75, 113, 68, 57, 10, 49, 57, 118,
  60, 19, 11, 100, 88, 51, 59, 85, 27, 96, 14, 103, 54, 19, 35, 42, 30, 73, 0, 12, 25, 58, 21, 121, 86, 126, 90, 14,
  105, 96, 15, 89, 126, 93, 82, 120, 45, 57, 38, 57, 9, 39, 123, 66, 26, 56, 33, 85, 40], #v[63, 0, 89, 79, 67, 73,
  11, 5, 108, 9, 82, 126, 32, 60, 50, 54, 31, 67, 1, 50, 25, 59, 55, 115, 94, 89, 49, 118, 50, 11, 64, 57, 1, 37, 72,
  105, 68, 43, 37, 42, 32, 43, 49, 52, 68, 41, 57, 85, 47, 52, 8, 81, 108, 72, 90, 1, 103, 1, 51, 114, 117, 48, 1, 71,
  27, 82, 29, 8, 23, 22, 56, 104, 24, 15, 90, 21, 50, 124, 45, 21, 23, 90, 69, 92, 38, 91, 49, 55, 18, 105, 119, 81,
  45, 114, 32, 21, 106, 21, 109, 15, 9, 40, 0, 62, 46, 117, 78, 74, 86, 34, 56, 67, 118, 17, 83, 42, 98, 64, 118, 99,
  45, 71, 76, 23, 51, 33, 2, 57, 37, 93, 109, 57]]

def Rk : GenMat toy :=
  #v[#v[1, 0, 76, 96, 120, 108, 105, 117, 38, 109, 90, 2, 63, 7, 27, 19, 65, 120, 125, 27, 77, 9, 17, 24, 66, 76, 29,
  18, 27, 105, 126, 13, 125, 53, 110, 44, 118, 41, 53, 43, 63, 41, 29, 23, 118, 45, 13, 84, 33, 23, 111, 92, 38, 110,
  74, 125, 48, 125, 25, 26, 20, 31, 125, 112, 73, 90, 69, 111, 81, 83, 15, 46, 79, 97, 74, 85, 27, 6, 37, 85, 81, 74,
  116, 70, 51, 72, 29, 17, 91, 44, 16, 92, 37, 26, 63, 85, 42, 85, 36, 97, 109, 47, 0, 3, 35, 20, 98, 106, 82, 59, 15,
  120, 18, 93, 88, 43, 58, 126, 18, 56, 37, 112, 102, 81, 25, 61, 123, 13, 53, 68, 36, 13], #v[0, 1, 3, 20, 31, 81,
  22, 119, 66, 126, 81, 44, 34, 27, 26, 59, 73, 103, 123, 41, 55, 42, 81, 84, 102, 101, 99, 110, 105, 64, 101, 60, 81,
  76, 70, 78, 117, 79, 84, 27, 23, 62, 22, 118, 86, 31, 26, 1, 61, 71, 68, 30, 98, 3, 3, 72, 64, 75, 63, 40, 87, 98,
  8, 121, 24, 57, 123, 70, 54, 7, 113, 33, 64, 104, 10, 118, 43, 93, 71, 7, 5, 115, 28, 116, 1, 93, 17, 117, 7, 66,
  62, 96, 36, 123, 22, 88, 107, 79, 17, 118, 26, 25, 126, 79, 98, 119, 81, 92, 75, 109, 55, 49, 34, 57, 18, 111, 117,
  12, 32, 74, 71, 110, 11, 93, 108, 58, 91, 7, 119, 103, 24, 27]]

def pivk : Vector Nat toy.N :=
  #v[1, 1, 0, 0, 0, 0, 0, 0, 0, 0, 0, 0, 0, 0, 0, 0, 0, 0, 0, 0, 0, 0, 0, 0, 0, 0, 0, 0, 0, 0, 0, 0, 0, 0, 0, 0, 0, 0,
  0, 0, 0, 0, 0, 0, 0, 0, 0, 0, 0, 0, 0, 0, 0, 0, 0, 0, 0, 0, 0, 0, 0, 0, 0, 0, 0, 0, 0, 0, 0, 0, 0, 0, 0, 0, 0, 0, 0,
  0, 0, 0, 0, 0, 0, 0, 0, 0, 0, 0, 0, 0, 0, 0, 0, 0, 0, 0, 0, 0, 0, 0, 0, 0, 0, 0, 0, 0, 0, 0, 0, 0, 0, 0, 0, 0, 0, 0,
  0, 0, 0, 0, 0, 0, 0, 0, 0, 0, 0, 0, 0, 0, 0, 0]

def code : Vector UInt8 toy.rrefBytes :=
  #v[3, 0, 0, 0, 0, 0, 0, 0, 0, 0, 0, 0, 0, 0, 0, 0, 0, 76, 48, 158, 157, 174, 155, 218, 90, 193, 239, 176, 153, 4,
  241, 253, 77, 51, 17, 193, 8, 153, 29, 201, 38, 237, 111, 244, 107, 110, 150, 61, 85, 91, 253, 82, 157, 139, 189,
  213, 160, 134, 46, 111, 174, 201, 173, 236, 195, 250, 25, 13, 229, 211, 135, 39, 181, 197, 119, 116, 250, 112, 61,
  195, 202, 234, 198, 80, 170, 70, 149, 116, 227, 12, 217, 137, 108, 89, 16, 110, 73, 243, 171, 170, 170, 164, 112,
  251, 5, 24, 140, 40, 98, 181, 116, 247, 192, 75, 186, 216, 149, 206, 47, 193, 149, 224, 230, 104, 166, 183, 111,
  212, 136, 164, 198, 128, 242, 137, 90, 238, 66, 127, 148, 37, 218, 104, 118, 201, 243, 62, 117, 83, 69, 169, 230,
  242, 216, 157, 6, 150, 121, 81, 166, 209, 89, 127, 82, 55, 23, 159, 197, 110, 253, 104, 2, 189, 35, 209, 35, 30, 12,
  144, 192, 229, 15, 117, 21, 35, 242, 152, 220, 222, 104, 59, 196, 67, 64, 180, 194, 190, 234, 30, 15, 133, 57, 135,
  30, 232, 70, 234, 7, 161, 15, 76, 218, 91, 176, 235, 103, 196, 174, 201, 248, 159, 226, 123, 148, 187, 108, 223, 98,
  162, 156, 228, 93, 103, 128, 148, 71, 247, 162, 203, 214, 109, 15, 247, 51, 102, 3]

deriving instance DecidableEq for RrefMat

theorem fws_eq : Machine.expandDigest (p := toy) .big 100 (Vector.replicate toy.T 0) ToyRun.digest = .ok fws := of_returns (by decide +kernel)

theorem tree_eq : rebuildSeedTreeLeaves (p := toy) (Vector.replicate _ 0) ToyRun.ind storage' salt = .ok (tree, used) := of_returns (by decide +kernel)

theorem sf_eq : Machine.generatorSFSeedExpand .big 100 stale.rref g0 = .ok sf := of_returns (by decide +kernel)

theorem G_eq : generatorRrefExpand stale.gen sf = .ok G := of_returns (by decide +kernel)

end BigRun
end LESS
