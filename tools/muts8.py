M=[]
def m(file,defn,old,new,claim,props): M.append(dict(file="Verif/Model/"+file+".lean",defn=defn,old=old,new=new,claim=claim,props=props))
K="Checks"; D="DirectedChecks"; T="Timeout"; F="DataFiles"; S="SnapLouvain"; A="Metadata"; X="ChampExample"; R="RandomTests"
# C101
m(K,"leidenPart",".rb { G with weight := some (List.replicate G.ecount 1) } 1",".rb G 1","leiden_part ignores the weights",["C101"])
m(K,"multilayerLeidenPart","return ((split.map fun G => .rb G 1, .cpm Gx 0), Gi, Gx)","return ((split.map fun G => .cpm G 1, .cpm Gx 0), Gi, Gx)","intralayer partitions use the configuration model",["C101"])
m(K,"multilayerLeidenPart","let Gx ← Prog.lift (ensureWeight test Gx.ecount Gx)","let Gx ← Prog.lift (ensureWeight test Gi.ecount Gx)","default weights of the interlayer graph",["C101"])
m(K,"assertAlmostEqual","if |x - y| ≤ 5 / 10 ^ 11","if x - y ≤ 5 / 10 ^ 11","both directions of the difference are checked",["C101"])
m(K,"assertAlmostEqual","5 / 10 ^ 11 then","5 / 10 ^ 8 then","ten places",["C101","C102"])
m(K,"checkCoefficients2D","let leidenP := leidenA - part.quality q 1","let leidenP := part.quality q 1","P_hat is the difference of the qualities",["C101"])
m(K,"layerIndices","decide (t = li.1)","decide (t ≠ li.1)","indices of the layer",["C101"])
m(K,"alternatePHat","return acc + (part.quality q 0 - part.quality q 1)","return (part.quality q 0 - part.quality q 1)","sum over the layers",["C101"])
m(K,"checkCoefficient3D","let leidenC := r.1.2.quality q 0","let leidenC := r.1.2.quality q 1","C_hat at resolution 0 (the model CPM: no effect of resolution on edges, but on pairs)",["C101"])
m(K,"checkRanges2D","r.1 ≤ γ ∧ γ ≤ r.2.1","r.1 < γ ∧ γ ≤ r.2.1","closed ranges",["C101","C108"])
m(K,"leftOrOn","decide (0 ≤ (p.1","decide (0 < (p.1","boundary belongs to the domain",["C101"])
m(K,"insideChampDomain","poly[(i + 1) % poly.length]?","poly[i + 1]?","the closing edge is tested too",["C101"])
m(K,"multilayerQuality","+ ω * p.2.quality q 0","+ p.2.quality q 0","omega weighs the coupling",["C101"])
# C102
m(D,"Graph.toDirected","G.edges ++ G.edges.map Prod.swap","G.edges ++ G.edges","both directions",["C102","C108"])
m(D,"Graph.toDirected","if G.directed then G\n  else","if G.directed = true ∧ G.ecount = 0 then G\n  else","a directed graph is left as it is",["C102"])
m(D,"sameEstimate","| some _, none => .error .typeError","| some _, none => .ok ()","None on one side only is noticed",["C102"])
m(D,"sameEstimate","| some .nan, some _ => .error .assertionError","| some .nan, some _ => .ok ()","NaN on one side only is noticed",["C102"])
m(D,"checkDirectedGamma","sameEstimate u.1 d.1\n","sameEstimate u.1 u.1\n","compares with the directed estimate",["C102"])
m(D,"compareDirected","  sameEstimate (some (.fin u.1.2)) (some (.fin d.1.2))\n","","omega is compared too",["C102"])
m(D,"checkDirectedTemporal","compareDirected (est \"multilevel\") G c) G","compareDirected (est \"temporal\") G c) G","the multilevel model is estimated second",["C102"])
# C103
m(T,"Body.exec","if D ≤ now + d then some (.timeout, max now D, none)","if D ≤ now + d then some (.timeout, now + d, none)","stops at the limit",["C103"])
m(T,"Body.exec","(if s = 0 then none else some (now + s))","(some (now + s))","alarm(0) sets no alarm",["C103"])
m(T,"Body.exec","  | .timed s inner handler, now, _ =>\n    match inner.exec lag now (if s = 0 then none else some (now + s)) with","  | .timed s inner handler, now, old =>\n    match inner.exec lag now (old.orElse fun _ => if s = 0 then none else some (now + s)) with","a new alarm replaces the old one",["C103"])
m(T,"Body.exec","else (handler o).exec lag (t + lag) none\n","else (handler o).exec lag (t + lag) (some D)\n","the alarm is cancelled in finally",["C103"])
m(T,"trialBody",".timed limit generation .stop",".timed (limit + 1) generation .stop","the limit",["C103"])
m(T,"workerRun","match workerRun lag limit gs t alarm' with","match workerRun lag limit gs now alarm' with","tasks run one after the other",["C103"])
m(T,"roundOutcome","    | .done (.ok r) => some r\n    | _ => none","    | .done (.ok r) => some r\n    | _ => some none","a timeout discards the round",["C103"])
# C104
m(F,"isSpaceChar","c.toNat = 32 ||","c.toNat = 95 ||","blank is whitespace",["C104"])
m(F,"readlines","if c = '\\n' then [c] :: readlines cs","if c = '\\n' then readlines cs","every line ends its own",["C104"])
m(F,"splitComma","if c = ',' then [] :: splitComma cs","if c = ';' then [] :: splitComma cs","separator",["C104"])
m(F,"digitsValue","10 * n + (c.toNat - 48)","8 * n + (c.toNat - 48)","decimal",["C104"])
m(F,"pyInt","if c = '-' then (digitsValue cs).map fun (n : Nat) => -(n : Int)","if c = '-' then (digitsValue cs).map fun (n : Nat) => (n : Int)","negative numbers",["C104"])
m(F,"edgeOfTuple","if a < 0 ∨ b < 0 then","if a < 0 then","negative vertex ids are rejected",["C104"])
m(F,"clusters","decide (∀ u < v, ¬ G.Reach u v)","decide (∀ u < v, ¬ G.Step u v)","components, not neighbourhoods",["C104"])
m(F,"giant","sizes.max?","sizes.min?","the largest component",["C104"])
m(F,"readTsv","decide (l.head? ≠ some '#')","decide (l.head? = some '#')","comments are skipped",["C104"])
m(F,"readCsv","decide (¬ ['n', 'o', 'd', 'e'] <:+: l)","decide (True ∨ ['n', 'o', 'd', 'e'] <:+: l)","the header is skipped",["C104"])
m(F,"globSuffix","decide (f.1.head? ≠ some '.' ∧ suffix <:+ f.1)","decide (f.1.head? ≠ some '.' ∧ suffix <:+: f.1)","names that end in the suffix",["C104"])
m(F,"expectedFiles","\"Wiki-Vote.txt\", ","","every expected file is required",["C104"])
m(F,"readDataFile","then readTsv f.2 else readCsv f.2","then readCsv f.2 else readTsv f.2","format by the name",["C104"])
m(F,"readGraphsFor","decide (n ∉ files.map Prod.fst)","decide (n ∈ files.map Prod.fst)","missing files",["C104"])
m(F,"readGraphsFor",".ok (pySortedBy Graph.vcount graphs)",".ok graphs","sorted by size",["C104"])
m(F,"adjacencyFromDat","decide (0 < l.length)","decide (1 < l.length)","only empty lines are dropped",["C104"])
m(F,"lazegaFromFiles","lazegaNetwork 71 [a, f, w]","lazegaNetwork 71 [a, w, f]","order of the layers",["C104"])
m(F,"lazegaFromFiles","| some a, some f, some w, some _ =>","| some a, some f, some w, _ =>","the attribute file is required too",["C104"])
# C105
m(S,"louvainSweep","if 100 < K then return []","if 100 < K then louvainSweep find (k + 1) γs","the sweep stops at the first partition with more than 100 communities",["C105"])
m(S,"louvainSweep","if 100 < K","if 100 ≤ K","more than 100",["C105"])
m(S,"snapRunLouvain","linspace 0 10 1000","linspace 0 10 100","1000 resolutions",["C105"])
m(S,"snapRunLouvain","if parts.length = 0 then .error .zeroDivisionError","if parts.length = 0 then .ok ∅","no partition at all is a division by zero",["C105"])
m(S,"snapLouvainMissing","!present i","present i","only missing graphs",["C105"])
# C106
m(A,"attributesOfLine","let status ← pyGet x 1","let status ← pyGet x 0","columns",["C106"])
m(A,"attributesOfLine","seniority.fdiv 5, age.fdiv 5","seniority, age.fdiv 5","seniority in fives",["C106"])
m(A,"attributesOfLine","seniority.fdiv 5, age.fdiv 5","seniority.fdiv 5, age.fdiv 10","age in fives",["C106"])
m(A,"thrice","l ++ l ++ l","l ++ l","three layers",["C106"])
m(A,"metadataScores","let s3 ← nmi part (thrice (attrs.map Attributes.age))","let s3 ← nmi part (thrice (attrs.map Attributes.seniority))","order of the table",["C106"])
m(A,"metadataScores","let K ← numCommunities (part.map Int.ofNat)","let K ← numCommunities (part.map fun _ => 0)","number of communities",["C106"])
# C107
m(X,"sampleGammas","[0.5, 1.0, 1.5, 2.0]","[0.5, 1.0, 1.5, 2.5]","resolutions",["C107"])
m(X,"plotXs","linspace plotLo plotHi 10","linspace plotLo plotHi 9","ten points",["C107"])
m(X,"pyMaxKey","if key b < key y then y else b) x)\n\n/-- `min","if key y < key b then y else b) x)\n\n/-- `min","the best",["C107"])
m(X,"samplePartitions","if γ = 1.0 then pyMinKey","if γ = 1.5 then pyMinKey","the worst at 1.0",["C107"])
m(X,"scatterPanel","q p.mem p.res / twom)","q p.mem p.res)","normalised",["C107"])
m(X,"centerLines","q p.mem g / twom)","q p.mem p.res / twom)","quality at the abscissa",["C107"])
m(X,"plotRightPanel","plotLo plotHi false","0 plotHi false","window",["C107"])
m(X,"plotRightPanel","pyGet parts 2)","pyGet parts 1)","third partition",["C107"])
m(X,"plotRightPanel","(d1.2.1, (y2.getLastD 0) / 0.8)","(d1.1, (y2.getLastD 0) / 0.8)","second vertical line",["C107"])
m(X,"plotRightPanel","q p3.mem d2.2.1 / twom]","q p3.mem d2.1 / twom]","end of the last segment",["C107"])
# C108
m(R,"connectedER","if (draws k).IsConnected then","if True then","connected graphs only",["C108"])
m(R,"connectedER","else connectedER draws (k + 1) fuel","else connectedER draws (k + 2) fuel","the first connected one",["C108"])
m(R,"randomValues","a + (b - a) * u i","a + b * u i","values in the interval",["C108"])
m(R,"randomPartitions","randomPartition (Ks i) (labels i) 0 fuel","randomPartition (Ks 0) (labels i) 0 fuel","own number of communities",["C108"])
m(R,"randomPartitions","(List.range num).mapM","(List.range (num - 1)).mapM","number of partitions",["C108"])
m(R,"coefficientsTest2D","checkCoefficients2D q G parts coefficients)","checkCoefficients2D q G.toDirected parts coefficients)","same graph",[])
m(R,"champTest2D","let gammas := randomValues d.gammas numGammas γ₀ γf","let gammas := randomValues d.gammas numGammas 0 (γf + 1)","gammas in the window",["C108"])
m(R,"coefficientsTest3D","partitionCoefficients3D (F := ℝ) rnd cpu sched Gi Gx layers parts","partitionCoefficients3D (F := ℝ) rnd cpu sched Gx Gi layers parts","argument order",["C108"])
m(R,"champTest3D","gammas.zip omegas","omegas.zip gammas","points",["C108"])
m(R,"famousCoefficientsTest","partitionCoefficients2D (F := ℝ) rnd cpu sched D leiden' false","partitionCoefficients2D (F := ℝ) rnd cpu sched D (leiden' ++ [[]]) false","partitions of the directed graph",["C108"])
m(R,"famousChampTest","champ2D env D leiden' 0 5 false","champ2D env D leiden' 0 4 false","window",["C108"])
