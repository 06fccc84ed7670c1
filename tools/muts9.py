M=[]
def m(file,defn,old,new,claim,props): M.append(dict(file="Verif/Model/"+file+".lean",defn=defn,old=old,new=new,claim=claim,props=props))
D="DocExample"; C="Convergence"
m(D,"docLabels","if layer < T - 1 then do","if layer < T then do","the last layer has one community",["C109"])
m(D,"docLabels","vcountFloorDiv i size","vcountFloorDiv i K","blocks of n // K vertices",["C109"])
m(D,"docNetwork","couplingGraph n T, layerVector n T)","couplingGraph T n, layerVector n T)","coupling of the layers",["C109"])
m(D,"docNetwork","comm pIn pOut draw","comm pOut pIn draw","p_in within communities",["C109"])
m(D,"countLabel","counts.set label (k + 1)","counts.set label (k + 2)","counts of the labels (shares)",["C109"])
m(D,"labelCounts","List.replicate (M + 1) 0","List.replicate M 0","a count for every label",["C109"])
m(D,"mostCommonEntry","if best.2 < y.2 then y else best","if best.2 ≤ y.2 then y else best","first of the most common labels",["C109"])
m(D,"mostCommonEntry","if best.2 < y.2 then y else best","if y.2 < best.2 then y else best","most common, not least common",["C109"])
m(D,"chunkLabels","((membership.take (size * (i + 1))).drop (size * i))","((membership.take (size * (i + 1))).drop (size * i + 1))","all vertices of the chunk",["C109"])
m(D,"chunkLabels","((membership.take (size * (i + 1))).drop (size * i))","((membership.take (size * (i + 2))).drop (size * i))","only the vertices of the chunk",["C109"])
m(D,"checkChunks","if K ≠ 3 then return ()","if K ≠ 2 then return ()","three communities",["C109"])
m(D,"checkChunks","      if l1 = l2 then .error .assertionError else return ()","      return ()","second and third chunk compared",["C109"])
m(D,"checkChunks","      if l1 = l2 then","      if l0 = l2 then","second and third chunk compared",["C109"])
m(D,"checkFirstLayer","    checkChunks size chunks membership\n    checkFirstLayer size chunks rest","    checkChunks size chunks membership","all partitions are checked",["C109"])
m(D,"finalLayerShare","membership.drop (membership.length - n)","membership.take n","the last layer",["C109"])
m(D,"finalLayerShare","pyDiv (best.2 : ℚ) (n : ℚ)","pyDiv (best.1 : ℚ) (n : ℚ)","share of the most common label",["C109"])
m(D,"checkFinalLayer","let unified := (shares.filter fun s => decide (s > 9 / 10)).length","let unified := (shares.filter fun s => decide (s ≥ 9 / 10)).length","more than 90%",["C109"])
m(D,"checkFinalLayer","decide (s < 1 / 2)","decide (s ≤ 1 / 2)","less than half",["C109"])
m(D,"checkFinalLayer","  else if ¬ split > 0 then .error .assertionError\n","","a split partition is needed",["C109"])
m(D,"checkFinalLayer","if ¬ unified > 0 then .error .assertionError","if ¬ unified > 1 then .error .assertionError","one unified partition is enough",["C109"])
m(D,"docVerdict","  checkFirstLayer size chunks stable\n  checkFinalLayer n stable","  checkFinalLayer n stable","the first layer is checked",["C109"])
m(D,"docExample","\"temporal\" gammas omegas γ₀ γf ω₀ ωf none","\"temporal\" gammas omegas γ₀ γf ω₀ ωf (some 3)","no restriction of the number of communities",["C109"])
m(D,"docExample","  return r.1\n","  return r.1.take 1\n","all stable partitions",["C109"])
m(D,"docPlotEstimates","(x.iterate partitions) γ₀ γf false","(x.iterate partitions) γ₀ γf true","partitions come as a set from the sweep (single partition mode)",["C109"])
m(D,"docPlotEstimates","(e.1, e.2.1, e.2.2.1.map Int.ofNat, e.2.2.2)","(e.2.1, e.1, e.2.2.1.map Int.ofNat, e.2.2.2)","segments from left to right",["C109"])
# C110
m(C,"multiplexEdges","fun t => s ≠ t","fun t => s < t","coupled both ways",["C110"])
m(C,"multiplexEdges","(n * s + v, n * t + v)","(n * s + v, n * s + v)","copies in other layers",["C110"])
m(C,"multiplexGraph","with directed := true","with directed := false","directed coupling",["C110"])
m(C,"pyLogFl","  | .ninf => .error (.valueError \"math domain error\")","  | .ninf => .ok .ninf","(unreachable: theta is never -inf)",["C110"])
m(C,"pyDivFl","if y = 0 then .error .zeroDivisionError else","if y = 1 then .error .zeroDivisionError else","division by zero",["C110"])
m(C,"trueTheta","(Fl.mul k k)) (.fin (T : ℝ))","(Fl.mul k k)) (.fin 1)","per layer",["C110"])
m(C,"trueTheta","(p * (2 * G.ecount))","(p * G.ecount)","twice the number of edges",["C110"])
m(C,"trueTheta","(Fl.mul k k)","k","square of the mean degree",["C110"])
m(C,"trueValues","Fl.div (Fl.sub thetaIn thetaOut) (Fl.sub a b)","Fl.div (Fl.sub a b) (Fl.sub thetaIn thetaOut)","logarithmic mean",["C110"])
m(C,"trueValues","pyDiv (copying * K) (1 - copying)","pyDiv (copying * K) (1 + copying)","odds of copying",["C110"])
m(C,"trueValues","pyLog (1 + ratio)","pyLog ratio","log(1 + odds)",["C110"])
m(C,"trueValues","(Fl.mul (.fin scale) (Fl.sub a b))","(Fl.sub a b)","scale of omega",["C110"])
m(C,"assertClose","Fl.lt (Fl.abs (Fl.sub x y)) (.fin tol)","Fl.lt (Fl.sub x y) (.fin tol)","absolute difference",["C110"])
m(C,"temporalConvergence","  Prog.lift (assertClose truth.1 r.1 (5 / 100))\n","","gamma of the temporal run is checked",["C110"])
m(C,"temporalConvergence","  Prog.lift (assertClose truth.2 (.fin r.2.1) (1 / 10))\n","","omega of the temporal run is checked",["C110"])
m(C,"temporalConvergence","25 \"multilevel\" false","25 \"temporal\" false","second run multilevel",["C110"])
m(C,"temporalConvergence","  Prog.lift (assertClose truth.2 (.fin s.2.1) (1 / 10))\n","  Prog.lift (assertClose truth.2 (.fin s.2.1) 1)\n","tolerance 0.1",["C110"])
m(C,"temporalConvergence","trueValues 2 copying","trueValues T copying","scale 2 in the temporal test",["C110"])
m(C,"temporalConvergence","net.2 1 1 (1 / 100) (5 / 100) 1000 25 \"temporal\"","net.2 1 1 (1 / 100) (5 / 100) 1000 0 \"temporal\"","25 iterations",["C110"])
m(C,"multiplexConvergence","(multiplexGraph first.length T) net.2","(couplingGraph first.length T) net.2","multiplex coupling",["C110"])
m(C,"multiplexConvergence","net.2 1 (1 / 10)","net.2 1 1","start at omega 0.1",["C110"])
m(C,"multiplexConvergence","trueValues T copying","trueValues 2 copying","scale T in the multiplex test",["C110"])
m(C,"newmanConvergence","    Prog.lift (assertClose (.fin t) r.1 (5 / 100))\n","","gamma is checked",["C110"])
m(C,"newmanConvergence","    newmanConvergence env rest","    pure ()","all networks are checked",["C110"])
