M=[]
def m(file,defn,old,new,claim,props): M.append(dict(file="Verif/Model/"+file+".lean",defn=defn,old=old,new=new,claim=claim,props=props))
P="Performance"; L="LouvainPart"; D="DomainFigures"; X="DocPlots"; G="GammaScan"
m(P,"determineTarget","if t.utilization > 20 then { s with threshold := 1 / 2 } else s","if t.utilization < 20 then { s with threshold := 1 / 2 } else s","lower threshold on a busy machine",["C111"])
m(P,"determineTarget","pyDiv ((n : ℝ) / 32 * t.base) t.pool","pyDiv ((n : ℝ) * t.base) t.pool","speedup is relative to the repetitions",["C111"])
m(P,"determineTarget","(.ok v, { s with target := some v })","(.ok v, s)","the target is measured once",["C111"])
m(P,"singlelayerParallelization","linspace lo hi (gammas.length * cpu)","linspace lo hi gammas.length","cpu times as many runs in the pool",["C111"])
m(P,"singlelayerParallelization","pyDiv (ratio * duration) poolDuration","pyDiv (ratio * poolDuration) duration","speedup not slowdown",["C111"])
m(P,"multilayerParallelization","let hi' ← pyMax omegas","let hi' ← pyMax gammas","omegas of the pool cover the omegas",["C111"])
m(P,"multilayerParallelization","let ratio ← pyDiv r (omegas.length : ℝ)","let ratio ← pyDiv r (gammas.length : ℝ)","ratio of the numbers of runs",["C111"])
m(P,"performanceTest","if p > s.threshold then .ok ()","if p > 3 / 4 then .ok ()","threshold lowered on busy machines",["C111"])
m(P,"performanceSuite","r.1 :: performanceSuite cpu rest r.2","r.1 :: performanceSuite cpu rest s","the target is shared by the tests",["C111"])
m(L,"weightedLayersPart","return ⟨G, some layers, 1, List.range G.vcount⟩","return ⟨G, some layers, 0, List.range G.vcount⟩","resolution 1",["C112"])
m(L,"cpmPart","⟨G, none, 0, List.range G.vcount⟩","⟨G, none, 1, List.range G.vcount⟩","no null model between layers",["C112"])
m(L,"multilayerLouvainPart","(weightedLayersPart inst accepts Gi layers).map fun p => (p, cpmPart Gx)","(weightedLayersPart inst accepts Gi layers).map fun p => (p, cpmPart Gi)","the interlayer object is on the interlayer graph",["C112"])
m(L,"multilayerLouvainPart","match ensureWeight test Gx.ecount Gx with\n    | .error e => (.error e, Gi, Gx)\n    | .ok Gx => ((weighted","match ensureWeight test Gi.ecount Gx with\n    | .error e => (.error e, Gi, Gx)\n    | .ok Gx => ((weighted","unit weight for every interlayer edge",["C112"])
m(L,"multilayerLouvainPartWithMembership","let inter ← parts.2.setMembership membership","let inter ← parts.2.setMembership (List.range membership.length)","both objects store the membership",["C112"])
m(L,"setMembership","if membership.length = p.graph.vcount then","if membership.length ≤ p.graph.vcount then","memberships of the wrong length rejected",["C112"])
m(L,"multilayerLouvainEffect","| .ok Gx => (env.optimise i Gi Gx layers γ ω, Gi, Gx)","| .ok Gx' => (env.optimise i Gi Gx' layers γ ω, Gi, Gx)","the interlayer graph gets weights too",["C112"])
m(L,"testShimmedNames","if attr = .leiden n.2 then .ok () else .error .assertionError","if attr = .leiden n.1 then .ok () else .error .assertionError","old names refer to the new functions",["C112"])
m(D,"easyParts","| some 0 => .ok (setOrder (setOrder parts))","| some 0 => restrictParts setOrder (some 0) (setOrder parts)","0 does not restrict",["C113"])
m(D,"easyDomains","layers kept 0 2 0 2","layers kept 0 2 0 3","the window 0..2 x 0..2",["C113"])
m(D,"easyDomains","\"temporal\"","\"multiplex\"","temporal estimates",["C113"])
m(D,"lazegaDomains","\"multiplex\"","\"temporal\"","multiplex estimates",["C113"])
m(D,"lazegaDomains","0 2 0 3","0 3 0 2","the window 0..2 x 0..3",["C113"])
m(D,"easyFigure","(4 / 10, 16 / 10) (6 / 10, 145 / 100) true true (plotted (estimated ds))\n\n/-- `plot_domains_with_amis`","(6 / 10, 145 / 100) (4 / 10, 16 / 10) true true (plotted (estimated ds))\n\n/-- `plot_domains_with_amis`","limits of the axes",["C113"])
m(D,"easyAmi","plotAmi ami (truth.map Int.ofNat) (4 / 10, 16 / 10)","plotAmi ami (truth.map Int.ofNat) (6 / 10, 16 / 10)","limits of the axes",["C113"])
m(D,"easyKs","true none (plotted (estimated ds))","false none (plotted (estimated ds))","axes swapped",["C113"])
m(D,"lazegaFigure","(plotted (lazegaTruncate (1 / 1000) ds))\n\n/-- The second","(plotted (lazegaTruncate (1 / 100) ds))\n\n/-- The second","truncation",["C113"])
m(D,"lazegaStableFigure","(plotted (stableDomains (lazegaTruncate (1 / 1000) ds)))","(plotted (lazegaTruncate (1 / 1000) ds))","only stable domains",["C113"])
m(D,"lazegaMarkers","fun d => (d.2.2.2, d.2.2.1)","fun d => (d.2.2.1, d.2.2.2)","markers (omega, gamma)",["C113"])
m(D,"lazegaKs","true (some 5)","true (some 4)","K_max = 5",["C113"])
m(D,"easyIterationFigure","return (values.map gridArrow, est.1.2, est.1.1)","return ((values.drop 1).map gridArrow, est.1.2, est.1.1)","all arrows",["C113"])
m(X,"docDomains","x.order Gi Gx layers gammas omegas)","x.order Gi Gx layers gammas (omegas.take 1))","runs at all grid points",["C114"])
m(X,"docDomains","(x.iterate S) γ₀ γf ω₀ ωf","(x.iterate S) ω₀ ωf γ₀ γf","the window",["C114"])
m(X,"docDomains","return (domains, ests.1)","return (domains.drop 1, ests.1)","all domains are plotted",["C114"])
m(X,"docPlots","pick₁ (ω₀, ωf) (γ₀, γf) true true (plotted (estimated ds))","pick₁ (γ₀, γf) (ω₀, ωf) true true (plotted (estimated ds))","limits of the axes",["C114"])
m(X,"docPlots","plotDomains palette shuffle₂ pick₂ true domains","plotDomains palette shuffle₂ pick₂ false domains","omega horizontally",["C114"])
m(X,"docPlots","plotNumCommunities (ω₀, ωf) (γ₀, γf) true none","plotNumCommunities (ω₀, ωf) (γ₀, γf) true (some 2)","no cap of the number of communities",["C114"])
m(X,"docTruth","List.replicate (3 * b) 0","List.replicate (2 * b) 0","truth covers the last layer",["C114"])
m(G,"sampledMax","pyMax vals","pyMin vals","maximum of the samples",["C115"])
m(G,"sampleRatios","linspace (1 / 10 ^ 9) (1 - 1 / 10 ^ 9) num","linspace (1 / 10) (1 - 1 / 10 ^ 9) num","samples from 1e-9",["C115"])
m(G,"sampleRatios","linspace (1 / 10 ^ 9) (1 - 1 / 10 ^ 9) num","linspace (1 / 10 ^ 9) 1 num","no division by log 1",["C115"])
m(G,"scanRound","(List.range' 2 18).mapM","(List.range' 2 17).mapM","K up to 19",["C115"])
m(G,"scanRound","(List.range' 2 18).mapM","(List.range' 1 18).mapM","entry K is for K communities",["C115"])
m(G,"settled","|p.1 - p.2| < 1 / 10 ^ 6","|p.1 - p.2| < 1 / 10 ^ 5","tolerance 1e-6",["C115"])
m(G,"settled","(last.zip current).all fun","(last.zip current).any fun","all values have settled",["C115"])
m(G,"settled","|p.1 - p.2| < 1 / 10 ^ 6","p.1 - p.2 < 1 / 10 ^ 6","absolute difference",["C115"])
m(G,"scanLoop","let rest ← scanLoop fuel (num * 2) current","let rest ← scanLoop fuel (num * 2) last","compared with the previous round",["C115"])
m(G,"scanLoop","let rest ← scanLoop fuel (num * 2) current","let rest ← scanLoop fuel (num + 2) current","points doubled",["C115"])
m(G,"gammaScan","scanLoop fuel (2 ^ 10)","scanLoop fuel (2 ^ 9)","starts with 1024 points",["C115"])
m(G,"figure61","(List.range' 2 7).mapM","(List.range' 2 8).mapM","curves 2..8",["C115"])
m(G,"figure61","return (K, (sampleRatios 1000).zip ys)","return (K, ys.zip (sampleRatios 1000))","abscissa and ordinate",["C115"])
m(G,"lineAndContour","parametricOmega lambertw γ x)","parametricOmega lambertw x γ)","contour of the estimate",["C115"])
m(G,"omegaFigure","lineAndContour lambertw 3 (10926 / 10000)","lineAndContour lambertw 3 1","contour of 1.0926",["C115"])
m(G,"omegaFigure","lineAndContour lambertw 2 1,","lineAndContour lambertw 2 (9 / 10),","contour of 1",["C115"])
m(G,"filledAreas","(linspace 0 1 500).map fun x => (x, possibleOmega K x, 2)","(linspace 0 1 500).map fun x => (x, possibleOmega K x, 0)","area above the line",["C115"])
m(G,"filledAreas","(linspace 1 3 500).map","(linspace 1 2 500).map","area up to the limit of the axis",["C115"])
