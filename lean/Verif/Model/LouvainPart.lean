import Verif.Model.Louvain
import Verif.Model.Checks

/-!
# The legacy Louvain partition objects

`multilayer_louvain_part` and `multilayer_louvain_part_with_membership` (`utilities/louvain_utilities.py:100-120`) with their effect on
the caller's graphs, and `multilayer_louvain` with its effect.
-/

namespace Verif

/-- A partition object of the package `louvain`, with the graph (and weights) it was built on and the membership it stores. -/
structure LouvainObj where
  graph : Graph ℝ
  /-- `layer_vec` of `RBConfigurationVertexPartitionWeightedLayers`; `none` for `CPMVertexPartition`. -/
  layers : Option (List Nat)
  resolution : ℝ
  membership : List Nat

/-- `louvain.RBConfigurationVertexPartitionWeightedLayers(G, layer_vec=…, weights='weight')`
(`/repo/utilities/louvain_utilities.py:108-109`): default resolution 1; initially every vertex is its own community.  `accepts` is the
package's check of its arguments (arbitrary).  Without the package the name is not defined, a package without multilayer support does
not have the class. -/
noncomputable def weightedLayersPart (inst : LouvainInstallation) (accepts : Graph ℝ → List Nat → Py Unit) (G : Graph ℝ)
    (layers : List Nat) : Py LouvainObj :=
  match inst with
  | .missing => .error .nameError
  | .plain => .error .attributeError
  | .multilayer => do
    accepts G layers
    return ⟨G, some layers, 1, List.range G.vcount⟩

/-- `louvain.CPMVertexPartition(G, resolution_parameter=0.0, weights='weight')` (`/repo/utilities/louvain_utilities.py:110`); only
reached with the package. -/
noncomputable def cpmPart (G : Graph ℝ) : LouvainObj := ⟨G, none, 0, List.range G.vcount⟩

/-- `part.set_membership(membership)` (`/repo/utilities/louvain_utilities.py:118-119`).  Simplification: the package's reaction to a
membership of the wrong length is `ValueError`. -/
def LouvainObj.setMembership (p : LouvainObj) (membership : List Nat) : Py LouvainObj :=
  if membership.length = p.graph.vcount then .ok { p with membership := membership }
  else .error (.valueError "Membership vector has incorrect size.")

/-- `multilayer_louvain_part` (`/repo/utilities/louvain_utilities.py:100-111`): the result, and the two graphs afterwards. -/
noncomputable def multilayerLouvainPart (inst : LouvainInstallation) (test : Graph ℝ → Bool) (accepts : Graph ℝ → List Nat → Py Unit)
    (Gi Gx : Graph ℝ) (layers : List Nat) : Py (LouvainObj × LouvainObj) × Graph ℝ × Graph ℝ :=
  match ensureWeight test Gi.ecount Gi with
  | .error e => (.error e, Gi, Gx)
  | .ok Gi =>
    match ensureWeight test Gx.ecount Gx with
    | .error e => (.error e, Gi, Gx)
    | .ok Gx => ((weightedLayersPart inst accepts Gi layers).map fun p => (p, cpmPart Gx), Gi, Gx)

/-- `multilayer_louvain_part_with_membership` (`/repo/utilities/louvain_utilities.py:114-120`); a numpy array of labels is converted to
the same list first. -/
noncomputable def multilayerLouvainPartWithMembership (inst : LouvainInstallation) (test : Graph ℝ → Bool)
    (accepts : Graph ℝ → List Nat → Py Unit) (Gi Gx : Graph ℝ) (layers membership : List Nat) :
    Py (LouvainObj × LouvainObj) × Graph ℝ × Graph ℝ :=
  let r := multilayerLouvainPart inst test accepts Gi Gx layers
  (do
    let parts ← r.1
    let intra ← parts.1.setMembership membership
    let inter ← parts.2.setMembership membership
    return (intra, inter), r.2)

/-- `multilayer_louvain` (`/repo/utilities/louvain_utilities.py:57-97`) with the two graphs afterwards (`multilayerLouvain` is the same
reduced to the result). -/
noncomputable def multilayerLouvainEffect (env : LouvainEnv) (i : Nat) (Gi Gx : Graph ℝ) (layers : List Nat) (γ : Fl ℝ) (ω : ℝ) :
    Py (List Nat) × Graph ℝ × Graph ℝ :=
  match checkCapabilities env.installation true with
  | .error e => (.error e, Gi, Gx)
  | .ok _ =>
    match ensureWeight env.test Gi.ecount Gi with
    | .error e => (.error e, Gi, Gx)
    | .ok Gi =>
      match ensureWeight env.test Gx.ecount Gx with
      | .error e => (.error e, Gi, Gx)
      | .ok Gx => (env.optimise i Gi Gx layers γ ω, Gi, Gx)

/-- The names that `test_deprecated_louvain_names.py:14-18` imports from the deprecated module and from the new one. -/
def shimmedNames : List (List Char × List Char) :=
  [("louvain_part".toList, "leiden_part".toList),
   ("louvain_part_with_membership".toList, "leiden_part_with_membership".toList),
   ("repeated_louvain_from_gammas".toList, "repeated_leiden_from_gammas".toList),
   ("repeated_parallel_louvain_from_gammas".toList, "repeated_parallel_leiden_from_gammas".toList),
   ("singlelayer_louvain".toList, "singlelayer_leiden".toList)]

/-- The names defined in `louvain_utilities` itself (`/repo/utilities/louvain_utilities.py:9-23,30-188`; `louvain` if the package is
installed). -/
def louvainOwnNames (inst : LouvainInstallation) : List (List Char) :=
  (["warnings", "ceil", "Pool", "cpu_count", "np", "psutil", "leiden_utilities", "sorted_tuple", "LOW_MEMORY_THRESHOLD", "Progress",
    "check_multilayer_louvain_capabilities", "multilayer_louvain", "multilayer_louvain_part",
    "multilayer_louvain_part_with_membership", "repeated_louvain_from_gammas_omegas",
    "repeated_parallel_louvain_from_gammas_omegas"].map String.toList) ++
  if inst = .missing then [] else ["louvain".toList]

/-- The functions defined in `leiden_utilities` (`/repo/utilities/leiden_utilities.py`). -/
def leidenNames : List (List Char) :=
  ["sorted_tuple", "singlelayer_leiden", "_wrapped_singlelayer_leiden", "leiden_part", "leiden_part_with_membership",
   "split_intralayer_leiden_graph", "_split_leiden_graph_layers_cached", "multilayer_leiden", "_wrapped_multilayer_leiden", "multilayer_leiden_part",
   "multilayer_leiden_part_with_membership", "repeated_leiden_from_gammas", "repeated_parallel_leiden_from_gammas",
   "repeated_leiden_from_gammas_omegas", "repeated_parallel_leiden_from_gammas_omegas"].map String.toList

/-- `test_shimmed_louvain_functions_in_old_module` (`/repo/tests/test_deprecated_louvain_names.py:11-24`): import the names from both
modules, compare the objects.  Simplification: a name that cannot be imported is `AttributeError` (Python reports `ImportError`). -/
def testShimmedNames (own leiden : List (List Char)) : Py Unit :=
  pyFor shimmedNames fun n => do
    let attr ← louvainGetattr own leiden n.1
    if n.2 ∈ leiden then (if attr = .leiden n.2 then .ok () else .error .assertionError) else .error .attributeError

end Verif
