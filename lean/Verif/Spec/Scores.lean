import Mathlib.Analysis.SpecialFunctions.Log.NegMulLog
import Mathlib.Data.Fintype.Perm
import Mathlib.Algebra.BigOperators.Group.Finset.Basic

/-!
# Specification of mutual-information scores

The textbook quantities, for membership lists: entropy of the label frequencies, mutual information, its expectation when
the labels of one list are permuted at random.
-/

namespace Verif.Spec
open Real
variable {α β : Type} [DecidableEq α] [DecidableEq β]

/-- Shannon entropy of the label frequencies: `-∑ f log f`. -/
noncomputable def entropy (p : List α) : ℝ := ∑ x ∈ p.toFinset, negMulLog ((p.count x : ℝ) / p.length)

/-- Mutual information `H(p) + H(q) - H(p, q)`. -/
noncomputable def mutualInformation (p : List α) (q : List β) : ℝ := entropy p + entropy q - entropy (p.zip q)

/-- The list with its entries permuted. -/
def permute {n : Nat} (q : List β) (h : q.length = n) (σ : Equiv.Perm (Fin n)) : List β :=
  List.ofFn fun i => q[σ i]'(by rw [h]; exact (σ i).2)

/-- The expected mutual information of `p` and a random permutation of `q`. -/
noncomputable def expectedMutualInformation {n : Nat} (p : List α) (q : List β) (h : q.length = n) : ℝ :=
  (∑ σ : Equiv.Perm (Fin n), mutualInformation p (permute q h σ)) / (n.factorial : ℝ)

/-- The two labellings are statistically independent: every pair of labels occurs as often as the frequencies predict. -/
def Independent (p : List α) (q : List β) : Prop :=
  ∀ x ∈ p, ∀ y ∈ q, ((p.zip q).count (x, y) : ℝ) * p.length = p.count x * q.count y

end Verif.Spec
