import Verif.Proofs.Params
/-!
# A small well-formed parameter set for the concrete cases

The theorems hold for every well-formed parameter set.  The concrete cases shown beside them use either one of
the seven sets of parameters.h or this smaller one.
-/
namespace LESS

/-- A parameter set with short codes (length 132, dimension 2), three rounds and one response. -/
def toy : Params := ⟨.one, 132, 2, 2, 3, 1, 64⟩

theorem toy_WF : toy.WF := by constructor <;> decide

theorem cat1Balanced_WF : Params.cat1Balanced.WF := Params.all_WF _ (by decide)
theorem cat1Intermediate_WF : Params.cat1Intermediate.WF := Params.all_WF _ (by decide)
theorem cat3Balanced_WF : Params.cat3Balanced.WF := Params.all_WF _ (by decide)
theorem cat5Balanced_WF : Params.cat5Balanced.WF := Params.all_WF _ (by decide)

end LESS
