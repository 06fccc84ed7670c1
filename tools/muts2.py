M=[]
def m(file,defn,old,new,claim,props): M.append(dict(file="Verif/Model/"+file,defn=defn,old=old,new=new,claim=claim,props=props.split()))
E_="Estimation.lean"
m("Champ.lean","interiorLoop","else if res.status = 2 ∨ res.status = 3 then","else if res.status = 2 then","an unbounded LP is reported as impossible (rerun after tightening)","C15")
m("Champ.lean","interiorLoop","else if res.status = 2 ∨ res.status = 3 then","else if res.status = 3 then","an infeasible LP is reported as impossible","C15")
m("Partition.lean","membershipToLayeredCommunities","dictAppend d (cv.1, l) cv.2","dictAppend d (cv.1, l) (cv.2 + 1)","layered communities list vertex ids","C05")
m(E_,"insideWeight","let b ← pyGet community e.1.2\n    return e.2 *","let b ← pyGet community e.1.1\n    return e.2 *","m_in sums the weights of edges inside communities","C24")
m(E_,"kappaList","pyAddAt acc b e.2) (List.replicate n 0)","pyAddAt acc b 1) (List.replicate n 0)","kappa adds both end strengths","C24 C56")
m(E_,"omegaOutOf","if K > 1 then do","if K > 0 then do","one community gives theta_out = 0","C24")
m(E_,"omegaOutOf","pyDiv (2 * m - 2 * mIn) (2 * m - d)","pyDiv (2 * m - mIn) (2 * m - d)","theta_out formula","C24")
m(E_,"estimateSinglelayerSBM","let omegaIn ← pyDiv (2 * mIn) d","let omegaIn ← pyDiv mIn d","theta_in formula","C24")
m(E_,"layerWeights","let l ← pyGet layerVec e.1.1\n    pyAddAt acc l e.2) (List.replicate T 0)","let l ← pyGet layerVec e.1.1\n    pyAddAt acc l 1) (List.replicate T 0)","m_t is the total edge weight of the layer","C27 C49")
m(E_,"layerSizes","pyAddAt acc l 1) (List.replicate T 0)","pyAddAt acc l 2) (List.replicate T 0)","Nt counts the vertices of the layer","C29 C49")
m(E_,"layerInsideWeights","if l = l' then pyAddAt acc l e.2 else .ok acc","pyAddAt acc l e.2","m_t_in ignores edges across layers","C27")
m(E_,"layerKappa","pyAddAt2 acc l b e.2) (List.replicate T","pyAddAt2 acc l a e.2) (List.replicate T","kappa_t_r books each end in its community","C27")
m(E_,"ordinalPersistence","((N : F) * ((T : F) - 1))","((N : F) * (T : F))","temporal persistence divides by N(T-1)","C29")
m(E_,"multilevelPersistence","let l ← pyGet layerVec e.2","let l ← pyGet layerVec e.1","multilevel persistence counts by target layer","C29")
m(E_,"multilevelPersistence","pyDiv perLayer.sum ((T : F) - 1)","pyDiv perLayer.sum (T : F)","multilevel persistence averages over T-1 layers","C29")
m(E_,"categoricalPersistence","((N : F) * (T : F) * ((T : F) - 1))","((N : F) * (T : F))","multiplex persistence divides by N T (T-1)","C29")
m(E_,"multiplexPoly","((T : F) - (n : F)) * x ^ n","((T : F) - (n : F)) * x ^ (n - 1)","multiplex copying probability is a root of the paper's polynomial","C30")
m(E_,"multiplexPoly","(List.range' 1 (T - 1))","(List.range' 1 T)","polynomial sums n = 1..T-1 (control: the extra term is zero)","C30")
m(E_,"multiplexP","if p < 0 then 0 else p","p","multiplex p is clamped at 0","C30")
m(E_,"multiplexP","if pers < 1 ∧ 1 < K then fsolve","if 1 < K then fsolve","p = 1 for full persistence","C30")
m(E_,"temporalP","max (((K : F) * pers - 1) / ((K : F) - 1)) 0","((K : F) * pers - 1) / ((K : F) - 1)","temporal p is clamped at 0","C30")
m(E_,"temporalP","(((K : F) * pers - 1) / ((K : F) - 1))","(((K : F) * pers - 1) / (K : F))","temporal p solves the paper's equation","C30")
m(E_,"countLayers","| some M => .ok (M + 1)","| some M => .ok M","T is the largest layer plus one","C27 C49")
m(E_,"guardedRatio","if b = 0 then .ok 0 else pyDiv a b","pyDiv a b","theta_out guard","C27 C25")
m(E_,"estimateMultilayerSBM","return 2 * w - d","return w - d","theta_out denominators","C27")
m(E_,"estimateMultilayerSBM",'let p := if model = "multiplex" then','let p := if model = "multilevel" then',"copying probability by model","C30")
m(E_,"gammaFromParameters","if omegaIn = 0 ∨ omegaOut = 0 then none","if omegaIn = 0 then none","gamma estimate is None iff a theta vanishes","C26")
m(E_,"gammaFromParameters","Fl.div (.fin (omegaIn - omegaOut))","Fl.div (.fin (omegaOut - omegaIn))","gamma estimate is the logarithmic mean","C26")
m(E_,"multiplexOmega","if p = 0 then .ok 0\n  else if 1 ≤ p ∨ thetaIn = 1","if 1 ≤ p ∨ thetaIn = 1","p = 0 gives omega = 0 (control with theta_in = 1)","C32")
m(E_,"multiplexOmega","else if 1 ≤ p ∨ thetaIn = 1 then","else if 1 < p ∨ thetaIn = 1 then","p >= 1 gives omega_max","C32 C34")
m(E_,"multiplexOmega","pyDiv a (T * (b - c))","pyDiv a (2 * (b - c))","multiplex omega divides by T","C32")
m(E_,"temporalOmega","pyDiv a (2 * (b - c))","pyDiv a (b - c)","temporal omega divides by 2","C32")
m(E_,"temporalOmega","pyDiv a (2 * (b - c))\n    else .ok omegaMax","pyDiv a (2 * (b - c))\n    else .ok 0","full persistence gives omega_max","C32 C34")
m(E_,"omegaFunctionFromModel",'else if model = "temporal" ∨ model = "multilevel" then','else if model = "temporal" then',"multilevel uses the temporal formula","C31 C34")
m(E_,"omegaFunctionFromModel","else .error (.valueError (msgModel model))\n\n/-- `leiden_part","else .ok fun _ _ _ _ => .ok 0\n\n/-- `leiden_part","unknown models are rejected","C31")
m(E_,"persistenceFunctionFromModel","| _, _ => .error (.valueError \"Parameters N and T cannot be None for temporal persistence calculation\")","| _, _ => .error .typeError","missing parameters raise ValueError","C31")
m(E_,"gammaEstimate","return (gammaFromParameters omegaIn omegaOut, G)","return (gammaFromParameters omegaOut omegaIn, G)","gamma_estimate (control: the logarithmic mean is symmetric)","C26")
m(E_,"gammaOmegaEstimate","let omega ← updateOmega thetaIn thetaOut p K","let omega ← updateOmega thetaOut thetaIn p K","omega estimate uses theta_in over theta_out","C43")
m("Weights.lean","setEsWeight","vals[i % vals.length]?","vals[i]?","missing weights become 1 on every edge","C56")
m("Weights.lean","ensureWeight","if test G then .ok G else","if test G = false then .ok G else","weights are only set if missing","C56 C57")
C="Consistency.lean"
m(C,"consistencyRules","(.ok (decide (1 < T))","(.ok (decide (0 < T))","single-layer input is rejected","C49")
m(C,"consistencyRules","(.ok Gx.directed, ","(.ok true, ","undirected interlayer graphs are rejected","C49")
m(C,"consistencyRules","decide (layerVec.length = Gi.vcount)","decide (Gi.vcount ≤ layerVec.length)","too long layer vectors are rejected","C49")
m(C,"consistencyRules","(mt.all fun m => decide (0 < m))","(mt.all fun m => decide (0 ≤ m))","layers without edges are rejected","C49")
m(C,"consistencyRules","decide (d ≤ 1)","decide (d ≤ 2)","multilevel in-degree at most one","C49")
m(C,"sameLayer","let b ← pyGet layerVec e.2","let b ← pyGet layerVec e.1","cross-layer edges in the intralayer graph are rejected","C49")
m(C,"mulMulNone","return a * ((T : Int) - 1)","return a * (T : Int)","multiplex edge count is N T (T-1)","C49")
m(C,"checkConsistency","rules.filter fun r => !r.1","rules.filter fun r => r.1","the message lists exactly the violated rules","C50")
m(C,"bothMultiples","return decide (r' = 0)","return true","vertex counts are multiples of T","C49")
S="Stability.lean"
m(S,"stablePartitions2D","Fl.le (.fin e.1) g && Fl.le g (.fin e.2.1)","Fl.le (.fin e.1) g","an estimate above the range is not stable","C35")
m(S,"stablePartitions2D","| none => false\n    | some g => Fl.le","| none => true\n    | some g => Fl.le","missing estimates are not stable","C35")
m(S,"leftOrRight","(Fl.mul (Fl.sub y (.fin p₁.2)) (.fin (p₂.1 - p₁.1)))","(Fl.mul (Fl.sub y (.fin p₂.2)) (.fin (p₂.1 - p₁.1)))","side test of an edge","C36")
m(S,"polygonEdges","(i + 1) % poly.length","i + 1","the closing edge is tested","C36")
m(S,"sameSideOfAllEdges","(sides.all fun x => x) || (sides.all fun x => !x)","(sides.all fun x => x)","interior estimates are stable","C36")
m(S,"sameSideOfAllEdges","(sides.all fun x => x) || (sides.all fun x => !x)","(sides.any fun x => x) || (sides.all fun x => !x)","outside estimates are not stable","C36")
P="Prune.lean"
m(P,"restrictParts","return if n = K then some part else none","return if n ≤ K then some part else none","restrict_num_communities keeps exactly K communities","C42 C64")
m(P,"canonicalParts","let cs ← parts.mapM sortedTuple\n    return setOrder cs","let cs ← parts.dropLast.mapM sortedTuple\n    return setOrder cs","every input partition competes","C38 C39 C40")
m(P,"rangesToGammaEstimates","let eG ← gammaEstimate test G r.2.2","let eG ← gammaEstimate test G (r.2.2.map fun _ => 0)","each range gets the estimate of its own partition","C38")
m(P,"pruneToStable","if ps.length = 0 then return ([], G)","if ps.length = 0 then Run.ofPy (.error .indexError)","no partitions give an empty result","C42 C64")
m(P,"truncateOmegas","min d.2.2.2 (ωf - 1 / 1000)","max d.2.2.2 (ωf - 1 / 1000)","omega estimates are truncated","C43 C44")
m(P,"truncateOmegas","min d.2.2.2 (ωf - 1 / 1000)","min d.2.2.2 ωf","truncation is to omega_end - 1e-3","C43 C44 C45")
m(P,"pruneToMultilayerStable","if singleThreaded then Run.ofPy (.error .notImplementedError)\n  else do","if singleThreaded ∧ False then Run.ofPy (.error .notImplementedError)\n  else do","single_threaded raises NotImplementedError","C65")
m(P,"domainsToEstimates","return ((d.1, d.2, eG.1.1, eG.1.2) :: restG.1, restG.2)","return ((d.1, d.2, eG.1.1, eG.1.2 + 1) :: restG.1, restG.2)","domains carry their own omega estimate","C43 C44")
L="Leiden.lean"
m(L,"splitLayers","let l ← pyGet layers e.1.1\n    let a ← pyAppendAt","let l ← pyGet layers e.1.2\n    let a ← pyAppendAt","edges go to their source's layer (control on intralayer graphs)","C53")
m(L,"splitLayers","let b ← pyAppendAt acc.2 l e.2","let b ← pyAppendAt acc.2 0 e.2","weights go to their own layer","C53 C55")
m(L,"splitLayers","let g ← newGraph n edges directed","let g ← newGraph n edges false","layers keep directedness","C53 C55")
m(L,"splitKey","G.directed, layers)","G.directed, [])","the cache distinguishes layer assignments","C48 C53 C54")
m(L,"multiplexProblem",".cpm Gx 0",".rb Gx γ","interlayer graph is optimised with CPM at resolution 0","C55")
m(L,"multiplexProblem","List.replicate intra.length 1 ++ [ω]","List.replicate intra.length ω ++ [1]","interlayer graph has weight omega","C55")
m(L,"Prog.optimise","{ w with calls := w.calls + 1 }","w","each optimisation is a new one (control)","C48")
I="Iterate.lean"
m(I,"monoBody","Fl.lt (Fl.abs (Fl.sub gamma s.gamma)) (.fin tol)","Fl.lt (Fl.sub gamma s.gamma) (.fin tol)","stops only when the change is below the tolerance","C46")
m(I,"monoBody","⟨r.2, gamma, some s.gamma, some r.1⟩","⟨r.2, s.gamma, some s.gamma, some r.1⟩","returned gamma is the estimate of the returned partition","C46")
m(I,"monoBody","| none => Prog.lift (.error (.valueError (msgDegenerate env s.gamma)))","| none => pure (s, true)","a degenerate partition raises","C46")
m(I,"maximizeMono",'if method = "louvain" ∨ method = "leiden" then','if method ≠ "2-spinglass" then',"unknown methods are rejected","C46")
m(I,"forRange","if r.2 then pure (r.1, true) else forRange body n r.1","forRange body n r.1","stops at convergence","C46 C47")
m(I,"multiBody","if ¬ (0 ≤ p ∧ p ≤ 1) then","if ¬ (0 ≤ p) then","impossible p raises","C47")
m(I,"multiBody","&& decide (|omega - s.omega| < omegaTol)","|| decide (|omega - s.omega| < omegaTol)","stops only when both changes are small","C47")
m(I,"multiBody","Prog.setParts r.1","Prog.setParts []","returned partition is the last one found","C47")
m(I,"iterateMulti","if verbose ∧ r.2 = false ∧ r.1.last = none then Prog.lift (.error .typeError)\n  else do","if r.2 = false ∧ r.1.last = none then Prog.lift (.error .typeError)\n  else do","max_iter = 0 without verbose does not raise TypeError","C48")
D="Drivers.lean"
m(D,"setComprehension","setComprehension run r.2 ps (insert c total)","setComprehension run r.2 ps {c}","the set holds all partitions found","C51")
m(D,"setComprehension","let c ← Prog.lift (sortedTuple r.1)\n    setComprehension","let c := r.1\n    setComprehension","partitions are canonical","C51")
m(D,"batches","(l.length + size - 1) / size","l.length / size","no task is dropped (incomplete last batch)","C51 C52")
m(D,"poolChunkSize","max 1 (len / (cpu * 100))","len / (cpu * 100)","batches are never empty","C51")
m(D,"gridPoints","gammas.flatMap fun g => omegas.map fun o => (g, o)","gammas.flatMap fun g => (omegas.take 1).map fun o => (g, o)","every (gamma, omega) pair is run","C51 C52")
m(D,"workerBatch","return (r.1 :: rs.1, rs.2)","return (rs.1, rs.2)","every result is delivered","C51")
V="Louvain.lean"
m(V,"louvainChunks","if 0 < chunkSize ∧ chunkDispatch then","if chunkDispatch then","small grids are not dispatched in empty chunks","C52")
m(V,"louvainLoop","let total := cs.foldl (fun s c => insert c s) total","let total := cs.foldl (fun s c => insert c s) ∅","all chunks contribute","C52")
m(V,"checkCapabilities","| .plain => if fatal then .error .attributeError else .ok false","| .plain => .ok false","fatal capability check raises","C58")
m(V,"louvainGetattr","if name ∈ own then .ok (.own name)\n  else if","if","functions of the module win over redirection","C58")
m(V,"strReplace","new ++ strReplace old new (cs.drop (old.length - 1))","new ++ cs.drop (old.length - 1)","every occurrence is replaced","C58")
m(V,"ceilDiv",".ok ((n + d - 1) / d)",".ok (n / d)","progress total is rounded up","C52")
m("Progress.lean","update","return (b, { p with i := i })","return (b, p)","increment counts","C62")
m("Progress.lean","done","p.update rnd p.total","p.update rnd p.i","done fills the bar","C62")
