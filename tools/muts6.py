M=[]
def m(file,defn,old,new,claim,props): M.append(dict(file="Verif/Model/"+file+".lean",defn=defn,old=old,new=new,claim=claim,props=props))
R="LfrRuns"; F="Lfr"; P="LfrPlots"; S="Snap"; B="BlockModels"
m(R,"collectGraphs","| [], acc => if acc.length < num then .error .waiting else .ok acc","| [], acc => if acc.length ≤ num then .error .waiting else .ok acc","exactly num graphs are enough",["C90"])
m(R,"collectGraphs","    if acc.length < num then\n      match b with","    if acc.length + 1 < num then\n      match b with","the loop stops one graph early",["C90"])
m(R,"collectGraphs","| none => collectGraphs num bs acc","| none => collectGraphs num bs []","a timeout keeps the graphs collected before",["C90"])
m(R,"collectGraphs","(acc ++ rs.filterMap id)","(rs.filterMap id ++ acc)","the first graphs delivered are stored",["C90"])
m(R,"dumpGraphs","Function.update d.graphs key (.full gs)","Function.update d.graphs (key.1 + 1, key.2) (.full gs)","the file written is the file named",["C90"])
m(R,"generateGraphs","    let gs := gs.take num\n","","only num graphs are stored",["C90"])
m(R,"generateGraphs","match d.graphs (num, fmt mu) with\n  | .absent => do","match d.graphs (0, fmt mu) with\n  | .absent => do","the file looked for is the file written",["C90"])
m(R,"starmapScores","gs.zipIdx.mapM","gs.reverse.zipIdx.mapM","results in the order of the graphs",["C90"])
m(R,"dictSet","if k' = k then (k, v) :: d else (k', v') :: dictSet d k v","if k' = k then (k, v) :: d else (k, v) :: d","other entries are kept",["C90"])
m(R,"dumpPartial","Script.put { d with partialResults := .torn }\n","Script.put { d with partialResults := .absent }\n","a file being written is not an absent file (rows are lost for good)",["C90"])
m(R,"dumpPartial","Script.put { d with partialResults := .full P }","Script.put { d with partialResults := .full ⟨P.plot1, P.plot2, P.plot3, P.plot3⟩ }","all four dictionaries are stored",["C90"])
m(R,"experimentLoop","if mu ∈ P.plot1.map Prod.fst then experimentLoop fmt o runs num mus P","if mu ∈ P.plot1.map Prod.fst then pure P","later mixing parameters are computed after a skipped one",["C90"])
m(R,"experimentLoop","let data2 ← Script.lift (starmapScores o runs mu \"gamma sweep\" gs)","let data2 ← Script.lift (starmapScores o runs mu \"modularity pruning\" gs)","second dictionary holds the sweep's scores",["C90"])
m(R,"experimentLoop","⟨dictSet P.plot1 mu data1, dictSet P.plot2 mu data2, dictSet P.plot3 mu data3, dictSet P.plot4 mu data4⟩","⟨dictSet P.plot1 mu data1, dictSet P.plot2 mu data2, dictSet P.plot3 mu data4, dictSet P.plot4 mu data3⟩","dictionaries are not swapped",["C90"])
m(R,"experimentLoop","      dumpPartial P\n      experimentLoop","      experimentLoop","every finished row is stored",["C90"])
m(R,"runExperiment","    | .torn => Script.lift (.error .unpickling)\n    | .full P => pure P\n  let P ←","    | .torn => pure ⟨[], [], [], []⟩\n    | .full P => pure P\n  let P ←","an incomplete partial file makes every later run raise",["C90"])
m(R,"runExperiment","| .full P => pure P\n  let P ←","| .full P => pure ⟨[], [], [], []⟩\n  let P ←","stored rows are used",["C90"])
m(R,"runExperiment","  else dumpResults P\n","  else dumpPartial P\n","the results are stored",["C90"])
m(R,"runExperiment","if mus.length = 0 then Script.lift (.error (.task .zeroDivisionError))\n  else dumpResults P","dumpResults P","an empty list of mixing parameters raises (finished runs store the same partial and final results)",["C90"])
m(R,"generateAll","    generateAll fmt o num mus\n\n","    pure ()\n\n","graphs for every mixing parameter",["C90"])
m(R,"lfrMain","  | .absent => runExperiment fmt o runs num mus\n  | _ => pure ()","  | _ => runExperiment fmt o runs num mus","stored results are not computed again",["C90"])
m(F,"assignCommunity","(vec.set v (some i))","(vec.set v (some 0))","labels describe the communities",["C89"])
m(F,"assignCommunities","assignCommunities (i + 1)","assignCommunities i","different communities get different labels",["C89"])
m(F,"lfrBenchmark","else if ¬ (Graph","else if (Graph","connected graphs are accepted",["C89"])
m(F,"methodGammas",".ok (List.replicate runs groundTruthGamma)",".ok (List.replicate 1 groundTruthGamma)","all runs at the ground truth's estimate",["C89"])
m(F,"methodGammas",".ok ((linspace lo hi runs).map .fin)",".ok ((linspace hi lo runs).map .fin)","the sweep goes from lo to hi",["C89"])
m(F,"runMethod","SG.2 (.memberships parts) first last none true","SG.2 (.memberships parts) first first none true","pruning over the whole window",["C89"])
m(F,"runMethod","(.memberships parts) first last (some K) true","(.memberships parts) first last none true","ground truth K is used",["C89"])
m(F,"runMethod","let K ← Run.ofPy (numCommunities (truth.map Int.ofNat))","let K := truth.length","K is the number of communities",["C89"])
m(F,"runMethod","    else\n      Run.ofPy (parts.mapM fun p => nmi truth p)","    else\n      Run.ofPy (parts.mapM fun p => nmi p p)","scores are with the ground truth",["C89"])
m(P,"npMedian","if n % 2 = 1 then","if n % 2 = 0 then","median",["C91"])
m(P,"npMedian","(s.getD (n / 2 - 1) 0 + s.getD (n / 2) 0) / 2","s.getD (n / 2 + 1) 0","median of an even number of values",["C91"])
m(P,"npSort","decide (a ≤ b)","decide (b ≤ a)","control: sorting the other way gives the same median but other percentiles",["C91"])
m(P,"npPercentile","((n - 1 : Nat) : ℝ) * (q / 100)","((n : Nat) : ℝ) * (q / 100)","percentile position",["C91"])
m(P,"npPercentile","* (pos - previous)","* (1 - (pos - previous))","interpolation weight",["C91"])
m(P,"panelLoop","if l.length > 0 then k + 1 else k","k + 1","fraction counts graphs with data",["C91"])
m(P,"panelLoop","npPercentile data 75 - npMedian data)] }","npMedian data - npPercentile data 75)] }","bars are nonnegative",["C91"])
m(P,"panelLoop","(npMedian data - npPercentile data 25, npPercentile data 75 - npMedian data)","(npPercentile data 75 - npMedian data, npMedian data - npPercentile data 25)","lower and upper bar are not swapped",["C91"])
m(P,"panelLoop","(fun data l => data ++ l) []","(fun _ l => l) []","all graphs' scores are pooled",["C91"])
m(P,"panelPosition","(1 - (idx % 2 : Nat), idx / 2)","(1 - (idx / 2 : Nat), idx / 2)","panels do not overlap",["C91"])
m(S,"maxmeanInner","max s.2.2 g)","g)","largest estimate",["C87"])
m(S,"maxmeanInner","if (K : ℝ) < omegaIn","if (K : ℝ) ≤ omegaIn","boundary of the parameter region",["C87"])
m(S,"gammaMaxmean","pyDiv s.1 (s.2.1 : ℝ)","pyDiv s.1 ((points * points : Nat) : ℝ)","mean over admissible points",["C87"])
m(S,"boxplotGraph","if 2 ≤ K ∧ K < snapKMax then","if 2 ≤ K ∧ K ≤ snapKMax then","number of communities below K_MAX",["C87"])
m(S,"boxplotGraph","return (K, g) :: rest","return (p.length, g) :: rest","K of an entry is its number of communities",["C87"])
m(S,"boxplotColumn","x.1 = K","x.1 ≤ K","columns by number of communities",["C87"])
m(B,"hierarchicalP2","3 / (2 * N / 9)","3 / (1 * N / 9)","block model probabilities",["C88"])
m(B,"hierarchicalPref","if i / 3 = j / 3 then","if i / 2 = j / 2 then","hierarchy of blocks",["C88"])
m(B,"groundTruth3","i / (3 * (N / 9))","i / (N / 9)","coarse ground truth",["C88"])
m(B,"newmanPOut","(q * (q - 1) * 250 * 250)","(q * q * 250 * 250)","outer probability",["C88"])
m(B,"newmanTrueGamma","pyDiv (trueIn - trueOut) (a - b)","pyDiv (trueIn - trueOut) (b - a)","true gamma",["C88"])
