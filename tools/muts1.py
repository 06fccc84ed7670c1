M=[]
def m(file,defn,old,new,claim,props): M.append(dict(file="Verif/Model/"+file,defn=defn,old=old,new=new,claim=claim,props=props.split()))
# Partition
m("Partition.lean","membershipToCommunities","membership.zipIdx.foldl (fun d cv => dictAppend d cv.1 cv.2) []","membership.tail.zipIdx.foldl (fun d cv => dictAppend d cv.1 cv.2) []","communities list exactly the vertices with that label (first vertex skipped)","C01")
m("Base.lean","dictAppend","if k' = k then (k', vs ++ [v]) :: d else","if k' = k then (k', v :: vs) :: d else","vertices of a community come in increasing order","C01")
m("Partition.lean","membershipToLayeredCommunities","return dictAppend d (cv.1, l) cv.2","return dictAppend d (cv.1, l) l","layered communities list vertex ids (layer stored instead)","C04")
m("Partition.lean","numCommunities","= M + 1 then .ok membership.dedup.length","= M + 1 then .ok membership.length","num_communities counts distinct labels","C05")
m("Partition.lean","numCommunities","(membership.dedup.length : Int) = M + 1","(membership.dedup.length : Int) ≤ M + 1","gaps in labels are rejected","C05")
m("Partition.lean","npUnique","(x, t.idxOf x)","(x, t.reverse.idxOf x)","canonical form numbers labels by first occurrence","C02")
m("Partition.lean","sortMap","(pySortedBy Prod.snd (npUnique t))","(pySortedBy Prod.fst (npUnique t))","canonical form numbers labels by first occurrence (sorted by label instead)","C02")
m("Partition.lean","sortMap","(xi.1.1, xi.2)","(xi.1.1, xi.2 + 1)","canonical labels start at 0","C02")
m("Partition.lean","LRU.call","| some v => ({ c with entries := (k, v) :: c.entries.filter (fun e => decide (e.1 ≠ k)) }, .ok v)","| some v => ({ c with entries := ((k, v) :: c.entries).take c.cap }, .ok v)","cache keeps the distinct recently used keys (duplicate entry on a hit evicts another)","C03")
m("Partition.lean","LRU.call","| .error e => (c, .error e)","| .error e => ({ c with entries := [] }, .error e)","an exception leaves the cache unchanged","C03 C53")
m("Partition.lean","LRU.call",".ok v => ({ c with entries := ((k, v) :: c.entries).take c.cap }, .ok v)",".ok v => ({ c with entries := (k, v) :: c.entries }, .ok v)","the cache never holds more than maxsize entries","C03 C53")
# Coefficients
m("Coefficients.lean","internalEdgeCount","let b ← pyGet membership e.2","let b ← pyGet membership e.1","A_hat counts edges whose two ends share a community","C06 C08 C09")
m("Coefficients.lean","adjacencyCoefficient","if directed then s else 2 * s","if directed then 2 * s else s","A_hat doubled for undirected graphs only","C06 C08 C09")
m("Coefficients.lean","nullModelNumerator","return i * o","return i * i","directed null model is in-degree times out-degree","C06 C07")
m("Coefficients.lean","nullModelNumerator","return s ^ 2","return s","undirected null model is the squared degree sum","C06 C07")
m("Coefficients.lean","partitionCoefficients2DSerial","if G.directed then (G.ecount : F) else 2 * (G.ecount : F)","if G.directed then 2 * (G.ecount : F) else 2 * (G.ecount : F)","directed P_hat is divided by m","C06 C07")
m("Coefficients.lean","ecountPerLayer","let l ← pyGet layerVec e.1\n      pyAddAt acc l 1","let l ← pyGet layerVec e.2\n      pyAddAt acc l 1","edges are counted in their source's layer (differs for directed cross-layer edges)","C08 C09")
m("Coefficients.lean","nullModelCoefficient3D","return npDiv ((s ^ 2 : Nat) : F) (2 * m)","return npDiv ((s ^ 2 : Nat) : F) m","undirected layer null model divided by 2m_t","C08 C09")
m("Coefficients.lean","nullModelCoefficient3D","let comms ← membershipToLayeredCommunities membership layerVec","let comms ← membershipToLayeredCommunities membership (layerVec.map fun _ => 0)","null model separates layers","C08 C09")
m("Coefficients.lean","partitionCoefficients3DSerial","let C ← partitions.mapM (adjacencyCoefficient Ginter.directed Ginter.edges)","let C ← partitions.mapM (adjacencyCoefficient Gintra.directed Ginter.edges)","C_hat doubles by directedness of the interlayer graph","C08 C09")
m("Coefficients.lean","partitionChunks","chunkBoundary rnd l.length cpu (i + 1))).drop","chunkBoundary rnd l.length cpu (i + 1) - 1)).drop","parallel coefficients equal serial ones (chunk end off by one)","C10 C11")
m("Coefficients.lean","fillSlot","slots.set i (some (f t))","slots.set (slots.length - 1 - i) (some (f t))","parallel results come in the order of the partitions","C10 C11")
m("Coefficients.lean","partitionCoefficients3D","(partitionChunks rnd cpu partitions) sched\n  return (do","(partitionChunks rnd (cpu - 1) partitions) sched\n  return (do","all partitions are dispatched in 3D","C11")
m("Graph.lean","npDiv","else if a = 0 then .nan else if 0 < a then .pinf else .ninf","else .fin 0","edgeless graphs do not produce finite coefficients","C12")
m("Graph.lean","allDegrees","G.edges.countP (fun e => e.1 = v) + G.edges.countP (fun e => e.2 = v)","G.edges.countP (fun e => e.1 = v ∨ e.2 = v)","a self-loop contributes two to the degree","C06 C07")
m("Graph.lean","inDegrees","G.edges.countP (fun e => e.2 = v) else G.allDegrees","G.edges.countP (fun e => e.1 = v) else G.allDegrees","in-degree counts edges into the vertex","C06")
# Champ
m("Champ.lean","interiorLoop","if ∀ h ∈ interior ++ boundaries, h.eval x < 0 then","if ∀ h ∈ interior, h.eval x < 0 then","returned point is strictly inside all halfspaces (boundaries unchecked)","C13")
m("Champ.lean","interiorLoop","if ∀ h ∈ interior ++ boundaries, h.eval x < 0 then","if ∀ h ∈ interior ++ boundaries, h.eval x ≤ 0 then","returned point is strictly inside","C13")
m("Champ.lean","interiorLoop","if limit < retries then","if limit < retries + 1000 then","the search only gives up after the retry limit","C14 C15")
m("Champ.lean","interiorLoop","fuel (k + 1) (initial * 2) retries","fuel (k + 1) initial retries","the search terminates (sample never grows)","C14")
m("Champ.lean","interiorLoop","else if res.status = 2 ∨ res.status = 3 then","else if res.status = 2 then","an infeasible or unbounded LP is reported as impossible","C15")
m("Champ.lean","chebyshevRow","⟨h.normal, h.normalNorm, -h.offset⟩","⟨h.normal, h.normalNorm, h.offset⟩","LP describes the inscribed ball","C15")
m("Champ.lean","chebyshevRow","⟨h.normal, h.normalNorm, -h.offset⟩","⟨h.normal, 0, -h.offset⟩","LP describes the inscribed ball (no radius term)","C15")
m("Champ.lean","numBoundaries","if d = 2 then .ok 4","if d = 2 then .ok 3","all four boundaries are in every LP","C15 C17")
m("Champ.lean","halfspace2D","⟨![-ap.2, -1], ap.1⟩","⟨![ap.2, -1], ap.1⟩","halfspace is Q >= A - gamma P","C16 C17 C18")
m("Champ.lean","halfspace3D","⟨![-apc.2.1, apc.2.2, -1], apc.1⟩","⟨![-apc.2.1, -apc.2.2, -1], apc.1⟩","halfspace is Q >= A - gamma P + omega C","C16 C21")
m("Champ.lean","boundaries2D","⟨![-1, 0], γ₀⟩]","⟨![-1, 0], 0⟩]","window starts at gamma_0","C17 C18")
m("Champ.lean","boundaries3D","⟨![0, 1, 0], -ωf⟩","⟨![0, 1, 0], -γf⟩","omega window ends at omega_f","C21 C22")
m("Champ.lean","champ2DHalfspaces","pyMin ((A.zip P).map fun ap => ap.1 - ap.2 * γf)","pyMin ((A.zip P).map fun ap => ap.1 - ap.2 * γ₀)","bottom bound lies below every line on the window","C16 C17 C18")
m("Champ.lean","champ2DHalfspaces","pyMax ((A.zip P).map fun ap => ap.1 - ap.2 * γ₀)","pyMin ((A.zip P).map fun ap => ap.1 - ap.2 * γ₀)","top bound lies above every line on the window","C17 C18")
m("Champ.lean","champ3DHalfspaces","apc.1 - apc.2.1 * γ₀ + apc.2.2 * ωf","apc.1 - apc.2.1 * γ₀ + apc.2.2 * ω₀","top bound lies above every plane on the window","C16 C21")
m("Champ.lean","facetsByHalfspace","decide (i < numPartitions)","decide (i ≤ numPartitions)","window boundaries are not reported as partitions","C17 C18")
m("Champ.lean","facetsByHalfspace","decide (i < numPartitions)","decide (i + 1 < numPartitions)","every dominating partition is reported (last one dropped)","C18")
m("Champ.lean","rangeOf","if v₁ 0 > v₂ 0 then (v₂ 0, v₁ 0, part) else (v₁ 0, v₂ 0, part)","(v₁ 0, v₂ 0, part)","ranges are ordered intervals","C17")
m("Champ.lean","rangeOf","(v₂ 0, v₁ 0, part) else (v₁ 0, v₂ 0, part)","(v₂ 1, v₁ 1, part) else (v₁ 1, v₂ 1, part)","ranges are gamma coordinates","C17")
m("Champ.lean","champ2D","return pySortedBy (fun r => r.1) ranges","return ranges","ranges are sorted by start","C19")
m("Champ.lean","sortDomain","arctan2 (x.1 - c.1) (x.2 - c.2)","arctan2 (x.1 - c.1) (x.1 - c.1)","domain vertices are in boundary order","C22")
m("Champ.lean","sortDomain","let proj := pts.map fun v => (v 0, v 1)","let proj := pts.map fun v => (v 1, v 0)","domain vertices are (gamma, omega)","C21 C22")
m("Champ.lean","HS.normalise","h.offset / h.rowNorm⟩","h.offset⟩","normalisation does not change the halfspace","C17 C16")
m("Champ.lean","centroid","(pts.map Prod.snd).sum / pts.length)","(pts.map Prod.fst).sum / pts.length)","domain vertices sorted around the centroid","C22")
