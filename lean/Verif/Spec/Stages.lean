import Mathlib.Data.List.Forall2
import Mathlib.Logic.Relation
import Verif.Model.Stages

/-!
# Scripts with cached intermediate results (specification)
-/

namespace Verif

/-- All products of a script. -/
def Plan.products (plan : Plan) : List Product := plan.phases.flatten

end Verif

namespace Verif.Spec
open Verif
variable {V : Type}

/-- The sources of every product are produced in earlier phases. -/
def SourcesEarlier : List FileName → List (List Product) → Prop
  | _, [] => True
  | known, ps :: rest => (∀ p ∈ ps, ∀ s ∈ p.sources, s ∈ known) ∧ SourcesEarlier (known ++ ps.map Product.name) rest

/-- A sensible script: different products have different names, the sources of each are produced before it, and the figures use
nothing but products. -/
structure Proper (plan : Plan) : Prop where
  names : (plan.products.map Product.name).Nodup
  sources : SourcesEarlier [] plan.phases
  reads : ∀ s ∈ plan.reads, ∃ p ∈ plan.products, p.name = s

/-- No two scripts use the same file for different things. -/
def Compatible (plans : List Plan) : Prop :=
  ∀ P ∈ plans, ∀ Q ∈ plans, ∀ p ∈ P.products, ∀ q ∈ Q.products, p.name = q.name → p = q

/-- The files hold the values. -/
def Holds (d : Store V) (names : List FileName) (vs : List V) : Prop := List.Forall₂ (fun n v => d n = .full v) names vs

/-- `d'` are the files after one of the scripts was started with the files `d`, its computations delivering results allowed by
`Derives` or exceptions, and ended, raised an exception or was killed at any moment. -/
def Stopped (plans : List Plan) (Derives : FileName → List V → V → Prop) (d d' : Store V) : Prop :=
  ∃ plan ∈ plans, ∃ compute : FileName → List V → Except Stop V,
    (∀ name vs v, compute name vs = .ok v → Derives name vs v) ∧ d' ∈ d :: (runPlan compute plan d).1

/-- Any number of such runs, one after the other. -/
def Runs (plans : List Plan) (Derives : FileName → List V → V → Prop) : Store V → Store V → Prop :=
  Relation.ReflTransGen (Stopped plans Derives)

/-- No files. -/
def noFiles : Store V := fun _ => .absent

/-- Every existing product was begun with complete sources, and every complete one is derived from what its sources hold. -/
def Derived (plans : List Plan) (Derives : FileName → List V → V → Prop) (d : Store V) : Prop :=
  ∀ P ∈ plans, ∀ p ∈ P.products, d p.name ≠ .absent →
    ∃ vs, Holds d p.sources vs ∧ ∀ v, d p.name = .full v → Derives p.name vs v

end Verif.Spec
