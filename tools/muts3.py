M=[]
def m(file,defn,old,new,claim,props): M.append(dict(file="Verif/Model/"+file,defn=defn,old=old,new=new,claim=claim,props=props.split()))
P_="Plotting.lean"; W_="Warnings.lean"; C_="Champ.lean"; K_="Coefficients.lean"; S_="Consistency.lean"; D_="Drivers.lean"; E_="Estimation.lean"; I_="Iterate.lean"; L_="Leiden.lean"; V_="Louvain.lean"; G_="Graph.lean"; ST="Stability.lean"; WT="Weights.lean"; PG="Progress.lean"
m(P_,"flipAxes","if flip then poly.map fun x => (x.2, x.1) else poly","poly","axes are flipped when asked","")
m(P_,"availableColours","(List.range n).map (palette n)","(List.range (n - 1)).map (palette n)","the palette has a colour per domain","")
m(P_,"vertexDomains","pi.1.map fun v => (v, pi.2)","(pi.1.drop 1).map fun v => (v, pi.2)","adjacent domains never share a colour","")
m(P_,"neighbourColours","poly.flatMap fun v =>","(poly.take 1).flatMap fun v =>","adjacent domains never share a colour","")
m(P_,"sampleOne","l[r % l.length]?","l[r]?","random.sample of a non-empty list never fails","")
m(P_,"greedyColours","(colours.set i (some c))","(colours.set (i + 1) (some c))","colour stored at the domain's own index","")
m(P_,"greedyColours","some c ∉ neighbourColours","some c ∈ neighbourColours","adjacent domains never share a colour","")
m(P_,"plotDomains","if available.length = domains.length then","if available.length ≤ domains.length then","with too few colours the greedy colouring is used","")
m(P_,"plotDomains","flipAxes flip d.1","flipAxes true d.1","polygons are drawn as given when not flipped","")
m(P_,"flMax","if Fl.lt a b then b else a","if Fl.lt b a then b else a","arrows start in the window","")
m(P_,"flMin","if Fl.lt b a then b else a","if Fl.lt a b then b else a","arrows start in the window","")
m(P_,"estimateArrow","(ω, γ)⟩","(γ, ω)⟩","arrow heads are at (omega, gamma)","")
m(P_,"estimateArrow","Fl.le (.fin ylim.1) γ && ","","arrow heads lie within the window","")
m(P_,"estimateArrow","xlim.1 - 5 / 100 * width","xlim.1 + 5 / 100 * width","only domains 5% outside are skipped","")
m(P_,"plotDomainsWithEstimates","estimateArrow xlim ylim (flipAxes true d.1)","estimateArrow xlim ylim d.1","centroids are those of the flipped polygons","")
m(P_,"plotDomainsWithEstimates","if points then arrows.map Arrow.head else []","[]","points drawn at the estimates","")
m(P_,"vertexInWindow","poly.any fun","poly.all fun","domain visible when some vertex is in the window","")
m(P_,"vertexInWindow","ylim.1 ≤ x.2 ∧ x.2 ≤ ylim.2","ylim.1 ≤ x.2","domain visible when some vertex is in the window","")
m(P_,"visibleDomains","else visibleDomains xlim ylim value ds","else .ok []","later domains are still drawn","")
m(P_,"plotNumCommunities","ks.map fun k => min k K, K","ks, K","values are clamped to K_max","")
m(P_,"plotNumCommunities","| some K => return (vis.map Prod.fst, ks, K)","| some K => return (vis.map Prod.fst, ks, K + 1)","ticks end at the largest number","")
m(P_,"plotAmi","fun c => ami c truth","fun c => ami truth c","AMI argument order (control: depends on symmetry)","")
m(P_,"plotAmi","++ [1]","","array ends with 1 so that the scale is fixed","")
m(P_,"communitiesAt","then r.2 else k) 0","then r.2 else 0) 0","last range containing the estimate","")
m(P_,"communitiesAt","Fl.le (.fin r.1.1) g && Fl.le g (.fin r.1.2)","Fl.lt (.fin r.1.1) g && Fl.le g (.fin r.1.2)","range ends are inclusive","")
m(P_,"arrowHead","if Fl.lt (.fin xlim.2) g then .fin xlim.2 else","","arrows point inside the axes","")
m(P_,"arrowHead","if decide (kNew = 0) || Fl.lt","if Fl.lt","an estimate in no range points to the top","")
m(P_,"plotEstimates","(x.1.1.1 + x.1.1.2.1) / 2","x.1.1.1","arrows start at the middle of the range","")
m(P_,"plotEstimates","if communitiesAt x.2 segments ≠ 0 then","if communitiesAt x.2 segments = 0 then","dots only for estimates in some range","")
m(P_,"assignColumn","| [x] => .ok (List.replicate n x)\n    | _","| _","numpy broadcasts single values","")
m(P_,"layerColumn","if cl.2 = layer then some cl.1","if cl.1 = layer then some cl.2","column of a layer","")
m(P_,"layerColumn","let x ← pyGet m 0","let x ← pyGet m 1","lists: first vertex's community everywhere","")
m(P_,"plotMultiplex","(List.range T).mapM","(List.range N).mapM","a column per layer","")
m(W_,"Graph.Step","(u, v) ∈ G.edges ∨ (G.directed = false ∧ (v, u) ∈ G.edges)","(u, v) ∈ G.edges","undirected edges lead both ways","C63")
m(W_,"Graph.IsConnected","0 < G.vcount ∧ ∀","∀","the empty graph is not connected","C63")
m(W_,"graphOfEdges","max (e.1 + 1) (e.2 + 1)","max (e.1) (e.2 + 1)","vertex count of the combined graph","C63")
m(W_,"hasOtherWeights","ws.any fun","ws.all fun","weights other than 1 warn","C63")
m(W_,"pruneWarned","if ¬ G.IsConnected then [.disconnected] else []","if G.IsConnected then [.disconnected] else []","disconnected graphs warn","C63")
m(W_,"pruneMultilayerWarned","if ¬ combined.IsConnected ∨ combined.vcount ≠ Gx.vcount then","if ¬ combined.IsConnected then","isolated vertices warn","C63")
m(W_,"pruneMultilayerWarned","hasOtherWeights Gi || hasOtherWeights Gx","hasOtherWeights Gi","interlayer weights warn","C63")
m(W_,"pruneMultilayerWarned","Gi.edges ++ Gx.edges","Gi.edges","both edge sets count for connectedness","C63")
m(W_,"pruneMultilayerWarned","if singleThreaded then ([], result)\n  else","","single threaded: raises before warnings","C63 C68")
m(W_,"needsTruncation","d.2.2.1.isSome && decide (ωf ≤ d.2.2.2)","decide (ωf ≤ d.2.2.2)","entries without gamma estimate do not warn","C68")
m(W_,"needsTruncation","decide (ωf ≤ d.2.2.2)","decide (ωf < d.2.2.2)","estimates equal to omega_end warn","C68")
m(W_,"domainEstimates","if ps.length = 0 then return none","if ps.length = 1 then return none","truncation warning","C68")
m(C_,"takeIndices","idx.filterMap fun i => l[i]?","(idx.drop 1).filterMap fun i => l[i]?","termination: the whole array is eventually sampled","C15")
m(C_,"getInteriorPoint","(hs.drop (hs.length - nb))","(hs.drop (hs.length - nb + 1))","all boundaries are respected","C14")
m(C_,"pyMax","l.max?","l.min?","top is above every quality in the window","C09")
m(C_,"pyMin","l.min? with | some x","l.max? with | some x","bottom is below every quality in the window","C09")
m(C_,"arctan2","Complex.arg ⟨b, a⟩","Complex.arg ⟨b, -a⟩","domain vertices in clockwise order (control: orientation flips)","C19")
m(C_,"HS.eval","* x k) + h.offset","* x k) - h.offset","halfspace value","C14")
m(C_,"HS.rowNorm","Real.sqrt ((∑ k, h.normal k ^ 2) + h.offset ^ 2)","((∑ k, h.normal k ^ 2) - h.offset ^ 2)","normalisation keeps the halfspace","C09")
m(C_,"champ3D","if parts.length = 0 then return []\n  let APC","if parts.length = 0 then Run.ofPy (.error .typeError)\n  let APC","no partitions: no domains","C21")
m(C_,"champ3D","(facetsByHalfspace parts.length out).mapM fun f => do","((facetsByHalfspace parts.length out).drop 1).mapM fun f => do","every dominant partition has a domain","C18")
m(C_,"champ3D","(sortDomain f.2, part)","(f.2.map fun v => (v 0, v 1), part)","vertices are sorted","C19")
m(C_,"requireFinite","| .fin x => .ok x | _ =>","| .fin x => .ok x | .nan => .ok 0 | _ =>","non-finite coefficients are rejected","")
m(C_,"champ2D","(rangeOf parts))\n  return pySortedBy (fun r => r.1) ranges","(rangeOf parts))\n  return ranges","ranges sorted","C10")
m(K_,"degreeSum","return ds.sum","return ds.length","P_hat sums degrees","C07")
m(K_,"poolStarmap","(List.replicate tasks.length none)","(List.replicate (tasks.length + 1) none)","the pool delivers one result per task","C08")
m(K_,"chunkBoundary","rnd (i * len) cpu","rnd i cpu * len","chunks cover all partitions","C08")
m(K_,"partitionCoefficients2D","results.flatMap (fun r => r.2))","results.reverse.flatMap (fun r => r.2))","parallel equals serial","C08")
m(K_,"partitionCoefficients2D","if A.length = P.length ∧ P.length = partitions.length then return (A, P)","if A.length = P.length then return (P.map fun _ => 0, P)","coefficients are returned","C07 C08")
m(S_,"pyAll","if b then pyAll p xs else .ok false","if b then .ok true else pyAll p xs","all()","C47")
m(S_,"allEqual","Nt.all fun n => some n == N","Nt.any fun n => some n == N","equal layer sizes","C47")
m(S_,"allPositive","decide (0 < n)","decide (0 ≤ n)","non-empty layers","C47")
m(S_,"edgeCountIs","decide ((n : Int) = r)","decide ((n : Int) ≤ r)","edge counts","C47")
m(S_,"unlessModel","if model ≠ m then .ok true else check","if model = m then .ok true else check","rules by model","C47")
m(S_,"evalRules","return (b, msg) :: rest","return (b, msg) :: (if b then rest else [])","all violated rules are listed","C47")
m(S_,"consistencyRules","decide (d ≤ 1)","decide (d = 1)","in-degree at most one","C47")
m(S_,"consistencyRules","(.ok (decide (1 < T))","(.ok (decide (0 < T))","multiple layers","C47")
m(S_,"prepareMultilayer","checkConsistency Gi Gx layerVec model mt T (some N) (some Nt)\n","","malformed input raises","C47")
m(S_,"prepareMultilayer","let es ← Gi.weightedEdges","let es ← Gx.weightedEdges","layer weights from the intralayer graph","C49")
m(D_,"collectUnordered","(cs.foldl (fun s c => insert c s) total)","(cs.foldl (fun s c => insert c s) ∅)","all partitions are collected","C52")
m(D_,"collectUnordered","let cs ← items.mapM sortedTuple","let cs := items","members are canonical","C52")
m(D_,"parallelDriver","workerBatch (run bk.2) s bk.1","workerBatch (run bk.2) s (bk.1.drop 1)","each point is run","C52")
m(D_,"setComprehension","let c ← Prog.lift (sortedTuple r.1)\n","let c := r.1\n","members are canonical","C51")
m(D_,"repeatedMultilayerLeiden","(Gi, Gx) (gridPoints gammas omegas) ∅","(Gi, Gx) (gammas.zip omegas) ∅","every grid point is run","C53")
m(D_,"multilayerTask","multilayerLeiden env obj s.1 s.2 layers p.1 p.2","multilayerLeiden env obj s.1 s.2 layers p.1 1","omega passed","C53")
m(D_,"batches","(l.drop (i * size)).take size","(l.drop (i * size)).take (size - 1)","batches cover the tasks","C52")
m(I_,"Fl.abs","| .fin x => .fin |x|","| .fin x => .fin x","convergence test uses absolute difference","C45")
m(I_,"Fl.abs","| .ninf => .pinf","| .ninf => .ninf","infinite changes never converge","C45")
m(I_,"Fl.lt","| .fin x, .fin y => decide (x < y)","| .fin x, .fin y => decide (x ≤ y)","strict tolerance","C45")
m(I_,"iterateMono","let ws ← Prog.lift G.esWeight\n","let ws := G.edges.map fun _ => (1:ℝ)\n","m is the total weight","C45 C46")
m(I_,"iterateMono","if verbose ∧ r.2 = false ∧ r.1.last = none then Prog.lift (.error .typeError)  -- abs","if r.2 = false ∧ r.1.last = none then Prog.lift (.error .typeError)  -- abs","max_iter 0 non-verbose returns","C46")
m(I_,"estimateMulti","let Gi ← ensureWeight env.test Gi.ecount Gi\n  let sbm","let sbm","control: weights already there","")
m(I_,"multiBody","Prog.setParts r.1\n","","parts is the last partition","C49 C50")
m(I_,"multiBody","if ¬ (0 ≤ p ∧ p ≤ 1) then","if ¬ (0 ≤ p) then","p > 1 raises","C49")
m(I_,"multiBody","&& decide (|omega - s.omega| < omegaTol)","","omega must converge too","C49")
m(I_,"multiBody","Fl.lt (Fl.abs (Fl.sub gamma s.gamma)) (.fin gammaTol) &&","Fl.lt (Fl.abs (Fl.sub gamma s.gamma)) (.fin omegaTol) &&","gamma tolerance","C49")
m(I_,"iterateMulti","pure (r.1.gamma, r.1.omega, parts, r.1.Gi, r.1.Gx)","pure (r.1.gamma, omega, parts, r.1.Gi, r.1.Gx)","final omega","C49")
m(I_,"iterateMulti","omegaFunctionFromModel model omegaMax T","omegaFunctionFromModel model omegaMax 2","T used by multiplex omega","C49")
m(L_,"newGraph","decide (e.1 < n ∧ e.2 < n)","true","igraph rejects bad edges (control: contract of igraph)","C41")
m(L_,"splitLayers","let l ← pyGet layers e.1.1\n    let a","let l ← pyGet layers e.1.2\n    let a","edges go to their layer","C41")
m(L_,"splitIntralayer","cache.call (splitKey obj G layers) (splitLayers","cache.call (splitKey 0 G layers) (splitLayers","different graphs are not confused","C42")
m(L_,"splitKey","G.directed, layers)","G.directed, [])","different layer vectors are not confused","C42")
m(L_,"emptySplitCache","LRU.empty 1","LRU.empty 0","cache size (control: transparency holds for every size)","")
m(L_,"singlelayerLeiden","env.findPartition i G γ","env.findPartition i G (.fin 1)","gamma is passed","C39")
m(L_,"multilayerLeiden","let Gx ← Prog.lift (ensureWeight env.test Gx.ecount Gx)\n  let split","let split","interlayer weights default","C40")
m(L_,"multiplexProblem","[.cpm Gx 0]","[.rb Gx γ]","interlayer edges have no null model","C40")
m(V_,"strContains","old.isPrefixOf (c :: cs) || strContains old cs","old.isPrefixOf (c :: cs)","substring test","C55")
m(V_,"multilayerLouvain","let _ ← checkCapabilities env.installation true\n","","needs the multilayer package","C57")
m(V_,"showProgress","([bp.1], some bp.2)","([bp.1], some p)","progress advances","C57")
m(V_,"repeatedLouvain","env pi.2 Gi Gx layers pi.1.1 pi.1.2","env pi.2 Gx Gi layers pi.1.1 pi.1.2","intralayer and interlayer not swapped","C57")
m(V_,"louvainChunks","if 0 < chunkSize ∧ chunkDispatch then","if chunkDispatch then","small grids are one chunk","C57")
m(PG,"Progress.new","⟨total, length, 0⟩","⟨total, length, 1⟩","starts at zero","")
m(PG,"Progress.bar","(p.length - filled) '.'","(p.length) '.'","bar has the given length","")
m(PG,"Progress.increment","(p.i + 1)","(p.i + 2)","increments by one","")
m(ST,"Fl.mul","| .pinf, .fin y => if 0 < y then .pinf else if y < 0 then .ninf else .nan","| .pinf, .fin y => .pinf","infinite estimates are not stable","")
m(ST,"Fl.le","| .nan, _ => false","| .nan, _ => true","NaN estimates are not stable","C36")
m(ST,"npMean","npDiv l.sum (l.length : ℝ)","npDiv l.sum 2","centroid","C37")
m(ST,"stableDomains","| _, _ => false\n\n/-- … with","| _, _ => true\n\n/-- … with","None estimates are dropped","C37")
m(ST,"stablePartitions3D","(stableDomains doms).map","(stableDomains doms).reverse.map","order kept","C37")
m(WT,"Graph.esWeight","| none => .error .keyError\n\n/-- `[(e.source","| none => .ok []\n\n/-- `[(e.source","missing weights raise KeyError","")
m(WT,"Graph.weightedEdges","if G.edges = [] then .ok [] else .error .keyError","if G.edges = [] then .ok [] else .ok []","missing weights raise KeyError","")
m(WT,"ensureWeight","List.replicate n 1","List.replicate n (1 + 1)","default weights are one","C56")
m(G_,"Fl.add","| .fin x, .fin y => .fin (x + y)","| .fin x, .fin y => .fin (x - y)","sum","C16")
m(G_,"pyDiv","if b = 0 then .error .zeroDivisionError else .ok (a / b)","if b = 0 then .ok 0 else .ok (a / b)","ZeroDivisionError","C25")
m(G_,"outDegrees","G.edges.countP (fun e => e.1 = v) else G.allDegrees","G.edges.countP (fun e => e.2 = v) else G.allDegrees","out degrees","C07")
m(E_,"partLen","| some M => M + 1\n\nsection SBM","| some M => M\n\nsection SBM","K is the number of communities","C24")
m(E_,"orCompute","| some x => .ok x\n  | none => compute","| some _ => compute\n  | none => compute","a given m is used","")
m(E_,"npLog","if 0 < x then .fin (log x) else if x = 0 then .ninf else .nan","if 0 < x then .fin (log x) else .ninf","log of a negative number is NaN (control: unreachable with positive weights)","")
m(E_,"vcountFloorDiv",".ok (n / T)",".ok (n / T + 1)","N is the number of vertices per layer","C29 C47")
m(E_,"pyLog","if 0 < x then .ok (log x) else .error (.valueError \"math domain error\")",".ok (log x)","math.log raises for non-positive arguments","C33 C69")
m(E_,"Fl.sub","| .fin y => .fin (-y)","| .fin y => .fin y","subtraction","C26")
m(E_,"leidenPartWithMembership","if membership.length = G.vcount then","if membership.length ≤ G.vcount then","wrong length membership raises","")
m(E_,"insideEdges","internalEdgeCount Gx.edges community","return Gx.edges.length","persistence counts kept edges","C29")
m("Partition.lean","LRU.call","(c.entries.filter (fun e => decide (e.1 ≠ k)))".replace("(c.","c.").replace("k)))","k))"),"c.entries","entries are unique (control: observably transparent)","")
m("Partition.lean","numCommunities","(membership.dedup.length : Int) = M + 1","(membership.length : Int) = M + 1","num_communities","C06")
m("Partition.lean","sortMap","(pySortedBy Prod.snd (npUnique t)).zipIdx","(npUnique t).zipIdx","labels by first occurrence","C01")
m("Prune.lean","truncateOmegas","ωf - 1 / 1000","ωf + 1 / 1000","omega truncated below omega_end","C68 C43")
m("Prune.lean","domainsToEstimates","d.2 defaultOmegaMax model","d.2 1 model","default omega_max","")
m("Prune.lean","rangesToGammaEstimates","(r.1, r.2.1, r.2.2, eG.1)","(r.2.1, r.1, r.2.2, eG.1)","ranges kept","C35")
