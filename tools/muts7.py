M=[]
def m(file,defn,old,new,claim,props): M.append(dict(file="Verif/Model/"+file+".lean",defn=defn,old=old,new=new,claim=claim,props=props))
W="Workflow"; Y="Synthetic"; Z="Lazega"; T="Stages"; X="GammaMax"; U="Studies"; V="Sweeps"
m(W,"findAndPrune","x.workers x.order G gammas","x.workers x.order G (gammas.take 1)","all requested gammas are run",["C94"])
m(W,"findAndPrune","(.memberships (x.iterate partitions)) γ₀ γf restrict singleThreaded","(.memberships (x.iterate partitions)) γ₀ γf none singleThreaded","the restriction is passed on",["C94"])
m(W,"findAndPruneMultilayer","(x.iterate partitions)) γ₀ γf ω₀ ωf restrict false","(x.iterate partitions)) γ₀ γf γ₀ γf restrict false","omega window is used",["C94"])
m(Y,"layerVector","fun i => i / n","fun i => i % n","layer of a vertex",["C95"])
m(Y,"layerMembership","List.replicate n i","List.replicate (n + 1) i","n vertices per layer",["C95"])
m(Y,"copiedLabels","if d.copy (l + 1) v < eta then (copiedLabels d eta first l).getD v 0","if d.copy (l + 1) v < eta then first.getD v 0","labels are copied from the layer before",["C95"])
m(Y,"blockEdges","decide (layers[v]? = layers[u]? ∧ draw","decide (draw","edges stay in one layer",["C95"])
m(Y,"blockEdges","if comm[v]? = comm[u]? then pIn else pOut","if comm[v]? = comm[u]? then pOut else pIn","pIn within communities",["C95"])
m(Y,"blockEdges","List.range' (v + 1) (comm.length - (v + 1))","List.range' v (comm.length - v)","no self-loops",["C95"])
m(Y,"couplingEdges","List.range (T - 1)","List.range T","coupling between consecutive layers only",["C95"])
m(Y,"couplingEdges","(n * l + v, n * l + v + n)","(n * l + v + n, n * l + v)","direction of the coupling",["C95"])
m(Y,"balancedLabels","i / (n / K)","i % (n / K)","blocks are contiguous",["C95"])
m(Y,"syntheticAttempt","|γ - desiredGamma| < 5 / 1000 ∧ |r.1.2 - desiredOmega| < 5 / 1000","|γ - desiredGamma| < 5 / 1000","omega of the ground truth near the desired value",["C95"])
m(Y,"syntheticAttempt","|γ - desiredGamma| < 5 / 1000 ∧","|γ - desiredGamma| < 5 / 100 ∧","tolerance",["C95"])
m(Y,"syntheticNetwork","| .ok none => syntheticNetwork attempt draws (k + 1) fuel","| .ok none => syntheticNetwork attempt draws k fuel","fresh random numbers in every round",["C95"])
m(Y,"testBlockModel","(labelVector d copying first T) pIn pOut d.edge","(labelVector d copying first T) pOut pIn d.edge","argument order",["C95"])
m(Y,"splitByLayer","filter fun es => !es.2","filter fun es => es.2","interlayer edges",["C95"])
m(Y,"splitByLayer","let Gx ← newGraph (n * T) inter G.directed","let Gx ← newGraph n inter G.directed","size of the interlayer graph",["C95"])
m(Y,"randomPartition","(draws k).dedup.length = K","(draws k).dedup.length ≤ K","exactly K communities",["C95"])
m(Z,"lazegaCoupling","(List.range T).map fun t => (t * N + i, i)","(List.range T).map fun t => (i, t * N + i)","both directions of the coupling",["C96"])
m(Z,"lazegaLayer","x == 1","x == 0","edges where the matrix has a 1",["C96"])
m(Z,"lazegaLayer","(N * t + i, N * t + j)","(N * t + j, N * t + i)","direction of the ties",["C96"])
m(Z,"lazegaNetwork","if ¬ (∀ adj ∈ mats, N = adj.length) then .error .assertionError\n  else if","if","size of the matrices is asserted",["C96"])
m(Z,"lazegaPlotted","return m1 ++ m3 ++ m2","return m1 ++ m2 ++ m3","order of the slices",["C96"])
m(Z,"lazegaPlotted","if K = 2 ∨ K = 3 ∨ K = 4 then","if K = 2 ∨ K = 3 then","sorted for 4 communities",["C96"])
m(Z,"lazegaPlotted","(membership.drop (t * N)).take N","(membership.drop (t * N)).take (N - 1)","whole slices",["C96"])
m(Z,"lazegaTruncate","min d.2.2.2 (3 - slack)","max d.2.2.2 (3 - slack)","truncation from above",["C96"])
m(Z,"lazegaStable","(restrictParts env.setOrder (some K) (env.setOrder parts))","(restrictParts env.setOrder none (env.setOrder parts))","only K communities",["C96"])
m(Z,"lazegaStable","kept 0 2 0 3","kept 0 2 0 2","omega window",["C96"])
m(T,"dumpFile","  Script.put (Function.update d name .torn)\n","","a crash while writing leaves a torn file",["C97"])
m(T,"produce","return (p.name, v)","return ((p.sources.headD p.name), v)","the file written is the product",["C97"])
m(T,"File.isAbsent","  | _ => false","  | .torn => true\n  | _ => false","a torn file is not recomputed",["C97"])
m(T,"runPhase","(ps.filter fun p => (d p.name).isAbsent).mapM","ps.mapM","existing files are kept",["C97"])
m(T,"runPhases","    runPhase compute ps\n    runPhases compute rest","    runPhase compute ps","all phases",["C97"])
m(T,"easyRegime","single \"easy_regime_50K_louvain.p\" [\"easy_regime_multilayer.p\"],\n    single \"synthetic","single \"easy_regime_50K_louvain.p\" [\"hard_regime_multilayer.p\"],\n    single \"synthetic","sources are produced earlier",["C97"])
m(T,"hardRegime","\"hard_regime_50K_louvain.p\"]],\n   [","\"easy_regime_50K_louvain.p\"]],\n   [","sources of its own regime",["C97"])
m(T,"lazegaPlan","    single \"lazega_CHAMP4.p\" [\"lazega_1M_louvain.p\"],\n","","every file read is produced",["C97"])
m(T,"snapPlan","[⟨.named \"boxplot_results.p\", (List.range n).map .parts⟩]]","[⟨.named \"boxplot_results.p\", (List.range (n + 1)).map .parts⟩]]","sources exist",["C97"])
m(X,"clippedGamma","0 < x ∧ x < 1","0 ≤ x ∧ x < 1","zero outside the open interval",["C98"])
m(X,"gammaMax","return -v","return v","maximum, not minimum of the negative",["C98"])
m(X,"gammaMax","eps (1 - eps)","eps 1","bracket",["C98"])
m(X,"fprimeEstimate","return (a - b) / 2","return (a - b)","central difference",["C98"])
m(X,"fprimeEstimate","let b ← gm (K - 1)\n  return (a - b) / 2","let b ← gm K\n  return (a - b) / 2","central difference",["C98"])
m(X,"fprime2Estimate","(a - 2 * b + c) / 1","(a - b + c) / 1","second difference",["C98"])
m(X,"fprime3Estimate","(a - 2 * b + 2 * c - d) / 2","(a - 2 * b + 2 * c - d)","third difference",["C98"])
m(X,"derivativePanels","let p3 ← (Ks.drop 2).mapM (fprime2Estimate gm)","let p3 ← (Ks.drop 2).mapM (fprimeEstimate gm)","what the third panel shows",["C98"])
m(X,"derivativePanels","let p1 ← (Ks.drop 1).mapM","let p1 ← Ks.mapM","abscissas and values have the same length",["C98"])
m(X,"tangent","g - slope * K","g + slope * K","tangent passes through the curve",["C98"])
m(U,"studyEstimates","γ₀ γf false","γf γ₀ false","window",["C99"])
m(U,"stabilityStep","Fl.le (.fin e.1) g && Fl.le g (.fin e.2.1)","Fl.le (.fin e.1) g","estimate inside the domain",["C99"])
m(U,"stabilityStep","if K = 2 then .ok (true, s.2)","if K = 3 then .ok (true, s.2)","2-community flag",["C99"])
m(U,"stabilityFlags","stabilityStep (false, false)","stabilityStep (true, false)","flags start false",["C99"])
m(U,"blockTruth2","min 1 (i / block)","min 2 (i / block)","two-community truth",["C99"])
m(U,"bistableTrial","if e3.1 = none ∨ e2.1 = none then","if e3.1 = none ∧ e2.1 = none then","skipped graphs",["C99"])
m(U,"bistableTrial","if ¬ G.IsConnected then return none","if False then return none","disconnected graphs are skipped",["C99"])
m(U,"Tally.record","both := if flags.1 && flags.2","both := if flags.1 || flags.2","both",["C99"])
m(U,"Tally.record","total := t.total + 1","total := t.total + 2","total",["C99"])
m(U,"bistableLoop","| none => bistableLoop trials trial fuel (i + 1) t\n","| none => bistableLoop trials trial fuel (i + 1) (t.record (false, false))\n","skipped graphs do not count",["C99"])
m(U,"bistableLoop","if t.total < trials then\n      match fuel","if t.total ≤ trials then\n      match fuel","exactly the required number",["C99"])
m(U,"bistablePoint","let c3 ← Run.ofPy (pyDiv (r.1.three : ℝ)","let c3 ← Run.ofPy (pyDiv (r.1.two : ℝ)","3-community share",["C99"])
m(U,"bistableAbscissas","linspace (2 / 100) (25 / 1000) 15","linspace (2 / 100) (25 / 1000) 14","45 abscissas",["C99"])
m(U,"tallyStable","if ¬ K < counts.length then .error .assertionError\n    else do","do","assertion",["C99"])
m(U,"tallyStable","counts.set K (n + 1)","counts.set K 1","counts partitions",["C99"])
m(U,"hierarchicalStable","parts 0 (5 / 2)","parts 0 2","gamma window",["C99"])
m(U,"tallyTrials","let stable ← trial i\n    let counts","let stable ← trial 0\n    let counts","fresh graph per trial",["C99"])
m(U,"stabilityBars","(probs.drop 3).take 14","(probs.drop 2).take 14","bar positions",["C99"])
m(U,"exampleSearch","if 3 < (Ks","if 4 < (Ks","more than three",["C99"])
m(U,"exampleSearch","fun K => K ≤ 9","fun K => K < 9","at most nine communities",["C99"])
m(U,"exampleSearch","else exampleSearch trial fuel (i + 1)","else exampleSearch trial fuel i","next graph",["C99"])
m(U,"pictures","pictures (Function.update files K (some p)) ps","pictures (Function.update files K (match files K with | none => some p | some q => some q)) ps","last picture survives",["C99"])
m(U,"karateStable","G kept 0 2 false","G (env.setOrder parts) 0 2 false","restricted before pruning",["C99"])
m(U,"karateDrawn","((K, i), p)","((0, i), p)","names by number of communities",["C99"])
m(V,"Prog.tryValueError","| (.error e, w') => (.error e, w')\n","| (.error _, w') => (.ok none, w')\n","other exceptions propagate",["C100"])
m(V,"Prog.tryValueError","| (.error (.valueError _), w') => (.ok none, w')","| (.error (.valueError _), _) => (.ok none, w)","a failed call still used random numbers",["C100"])
m(V,"estimationTrials","| none => pure rest\n\n/-- `run_est","| none => pure (.nan :: rest.1, rest.2)\n\n/-- `run_est","failures leave no entry",["C100"])
m(V,"untilConvergence","estimationTrials env method 25 g0 (if method = \"louvain\" then 10 else 1) G","estimationTrials env method 25 g0 (if method = \"leiden\" then 10 else 1) G","ten trials for louvain",["C100"])
m(V,"untilConvergence","estimationTrials env method 25","estimationTrials env method 1","runs until convergence",["C100"])
m(V,"untilConvergence","pure (r.1.map (fun _ => g0) ++ rest.1, r.1 ++ rest.2)","pure (g0 :: rest.1, r.1 ++ rest.2)","one start per result",["C100"])
m(V,"averageMovement","(.fin (es.length : ℝ))","(.fin 100)","average over successes",["C100"])
m(V,"oneStepArrows","if 0 < r.1.length then","if 1 < r.1.length then","arrow if one call succeeded",["C100"])
m(V,"oneStepArrows","estimationTrials env method 1 g0","estimationTrials env method 25 g0","one step only",["C100"])
m(V,"multiTrials","(1 / 100) (5 / 100) 1000 1 \"temporal\"","(1 / 100) (5 / 100) 1000 2 \"temporal\"","one step only",["C100"])
m(V,"gridIteration","r.1.map (fun e => e.2 - o0)","r.1.map (fun e => e.2 - g0)","omega differences",["C100"])
m(V,"gridIteration","multiTrials env obj layers g0 o0 5","multiTrials env obj layers o0 g0 5","argument order",["C100"])
m(V,"pamfilGrid","(linspace (4 / 10) (16 / 10) 15)","(linspace (4 / 10) (16 / 10) 14)","grid size",["C100"])
m(V,"flMean","if l = [] then .nan else","if l = [] then .fin 0 else","mean of nothing is NaN",["C100"])
m(V,"gridArrow","(v.2.1, v.1, Fl.mul","(v.1, v.2.1, Fl.mul","arrow position",["C100"])
m(V,"oneRun","pure (r.1, K)","pure (.fin gamma, K)","the estimate is returned",["C100"])
m(V,"oneRun","(1 / 100) 1 false \"leiden\"","(1 / 100) 2 false \"leiden\"","one step only",["C100"])
m(V,"keptRuns","(kept.map Prod.fst, kept.map Prod.snd)","(kept.map Prod.fst, (kept.map Prod.snd).reverse)","pairs stay together",["C100"])
m(V,"histogram","edges.getD j 0 ≤ x.1 ∧","edges.getD j 0 < x.1 ∧","left end belongs to the bin",["C100"])
m(V,"perKHistograms","List.range' 2 8","List.range' 2 7","2 to 9 communities",["C100"])
m(V,"perKHistograms","1 / (gs.length : ℝ)","1 / (kept.1.length : ℝ)","normalised per K",["C100"])
m(V,"perKHistograms","6 / 10 < g ∧ g < 16 / 10","6 / 10 ≤ g ∧ g < 16 / 10","strict assertion",["C100"])
