M=[]
def m(file,defn,old,new,claim,props): M.append(dict(file="Verif/Model/"+file+".lean",defn=defn,old=old,new=new,claim=claim,props=props))
B="Bistable"; N="NonMonotone"; S="Scores"; L="LoopTest"; C="ManualChamp"; E="Estimation"
m(B,"bistableCross","(b * (7920 * d + 1099) - 1000)) ((b","(b * (7920 * d + 1099) - 100)) ((b","switch curve",["C85"])
m(B,"bistableCross","pyDiv (7040 * b * d","pyDiv (7040 * d","switch curve: dropped factor",["C85"])
m(B,"bistableCrossLimit","pyDiv (7040 * d * (1099 + 7920 * d))","pyDiv (7040 * d * (1089 + 7920 * d))","limit of the switch curve",["C85"])
m(B,"bistableGamma2","(256 * d + 19)","(256 * d + 91)","two-community estimate curve",["C85"])
m(B,"bistableGamma2","pyDiv numerator (denominatorScalar * (l - l'))\n\n/-- `gamma_3","pyDiv numerator (denominatorScalar * (l' - l))\n\n/-- `gamma_3","two-community estimate curve: sign",["C85"])
m(B,"bistableGamma3","(320 * d * (80 * d - 7) - 549)","(320 * d * (80 * d + 7) - 549)","three-community estimate curve",["C85"])
m(B,"bistablePIn2","bistablePIn1 * (3 / 4)","bistablePIn1 * (4 / 3)","preference matrix",["C85"])
m(B,"bistablePref","[bistablePOut1, d, bistablePIn2]]","[bistablePOut1, bistablePIn2, d]]","preference matrix: swapped entries",["C85"])
m(B,"bistableMerged","min 1 b","min 2 b","two-community ground truth",["C85"])
m(N,"dropsAt","decide (b < a) ||","decide (b ≤ a) ||","nested candidates are monotonic (ties)",["C86"])
m(N,"dropsAt","decide (b < a) ||","decide (a < b) ||","a drop is reported",["C86"])
m(N,"dropsAt","|| dropsAt (b :: l)","|| dropsAt l","every neighbouring pair is looked at",["C86"])
m(S,"nmi",'skNormalizedMutualInfo p q "arithmetic"','skNormalizedMutualInfo p q "min"',"normalisation of nmi",["C75"])
m(S,"skEntropy","else -(p.dedup.map","else (p.dedup.map","sign of the entropy",["C75"])
m(S,"skEntropy","if p.dedup.length = 1 then 0","if p.dedup.length = 1 then 1","entropy of one community",["C75"])
m(S,"skMutualInfo","if p.dedup.length = 1 ∨ q.dedup.length = 1 then 0","if p.dedup.length = 1 ∧ q.dedup.length = 1 then 0","control: the formula gives 0 as well",[])
m(S,"skMutualInfo","+ log p.length + log q.length)","+ log p.length)","mutual information formula",["C75"])
m(S,"skNormalizedMutualInfo","(p.dedup.length = 1 ∧ q.dedup.length = 1) ∨","(p.dedup.length = 1 ∨ q.dedup.length = 1) ∨","trivial partitions",["C75"])
m(S,"skNormalizedMutualInfo","if p.length ≠ q.length then","if p.length = q.length + 1 then","unequal lengths raise",["C75"])
m(L,"gammaToDomain","Fl.le (.fin e.1) gamma && Fl.le gamma (.fin e.2.1)","Fl.le gamma (.fin e.2.1)","estimate is looked up in its range",["C80"])
m(L,"updatesRunOut","    | none => false\n","    | none => true\n","None estimates stop the walk",["C80"])
m(L,"updatesRunOut","if oldMembership = new.1 then false else","if oldMembership ≠ new.1 then false else","fixed points stop the walk",["C80"])
m(L,"loopDetected","updatesRunOut ests 1000","updatesRunOut ests 2","reported loops are loops",["C80"])
m(L,"loopPair","decide (quality g2.2 part2 g2' < quality g2.2 part1 g2')","decide (quality g2.2 part2 g2' ≤ quality g2.2 part1 g2')","pair test is strict",["C80"])
m(L,"loopPair","decide (quality g2.2 part1 g1' < quality g2.2 part2 g1')","decide (quality g2.2 part1 g2' < quality g2.2 part2 g2')","pair test at both estimates",["C80"])
m(L,"loopTrial","champ2D env G parts 0 3 true","champ2D env G parts 0 2 true","window of the loop test",["C80"])
m(C,"updateCell","if best.1 < Q then","if best.1 ≤ Q then","first maximum is kept",["C82"])
m(C,"updateCell","omega * qu.inter p","qu.inter p","quality of the cell",["C82"])
m(C,"updateCell","| none => some (Q, p, gamma, omega)","| none => none","cells are filled",["C82"])
m(C,"champNullMatrix","if u ∈ inds ∧ v ∈ inds then","if u ∈ inds then","null model only within layers",["C82"])
m(C,"champNullMatrix","deg u * deg v / total","deg u * deg v / (2 * total)","null model denominator",["C82"])
m(C,"champCoefficient","if c[i]? = c[j]? then M i j","if c[i]? = c[j]? then M j j","coefficient sums the matrix",["C82"])
m(E,"gammaOmegaEstimateWith","let T ← orCompute T? (countLayers layerVec)\n  let community ← leidenPartWithMembership Gi","let T ← countLayers layerVec\n  let community ← leidenPartWithMembership Gi","optional argument T is used",["C77"])
m(E,"gammaOmegaEstimateWith","model N? (some T) Nt? mt?\n  let updateOmega","model N? (some T) Nt? none\n  let updateOmega","optional argument m_t is used",["C77"])
m(E,"gammaOmegaEstimateWith","model N? (some T) Nt? mt?\n  let updateOmega","model (some T) N? Nt? mt?\n  let updateOmega","N and T are not swapped",["C77"])
m(E,"orCompute","  | some x => .ok x\n  | none => compute","  | some x => compute.map fun _ => x\n  | none => compute","given value is used without computing",["C77"])
m(E,"layerKappa","    let b ← pyGet community e.1.2\n    pyAddAt2 acc l b e.2","    let b ← pyGet community e.1.2\n    pyAddAt2 acc b l e.2","strengths per layer and community",["C28","C84"])
m(E,"categoricalPersistence","((N : F) * (T : F) * ((T : F) - 1))","((N : F) * ((T : F) - 1))","categorical persistence",["C79"])
m(E,"ordinalPersistence","((N : F) * ((T : F) - 1))\n\n/-- `multilevel","((N : F) * (T : F))\n\n/-- `multilevel","ordinal persistence",["C84"])
m(E,"temporalP","max (((K : F) * pers - 1) / ((K : F) - 1)) 0","max (((K : F) * pers - 1) / (K : F)) 0","copying probability",["C84"])
m(E,"temporalP","if pers < 1 ∧ 1 < K then max","if pers ≤ 1 ∧ 1 < K then max","control: equal values at persistence 1",[])
m(E,"gammaFromParameters","Fl.div (.fin (omegaIn - omegaOut))","Fl.div (.fin (omegaIn + omegaOut))","gamma estimate",["C83","C84","C85"])
m(E,"gammaFromParameters","if omegaIn = 0 ∨ omegaOut = 0 then none","if omegaIn = 0 then none","None when a parameter is 0",["C27"])
m(E,"omegaOutOf","let d ← pyDiv sumKappaSqr (2 * m)\n    pyDiv (2 * m - 2 * mIn) (2 * m - d)","let d ← pyDiv sumKappaSqr (2 * m)\n    pyDiv (2 * m - mIn) (2 * m - d)","maximum likelihood",["C83","C85"])

m(E,"temporalOmega","      let c ← pyLog thetaOut\n      pyDiv a (2 * (b - c))\n    else .ok omegaMax","      let c ← pyLog thetaOut\n      pyDiv a (b - c)\n    else .ok omegaMax","omega estimate, posterior at 4 omega",["C84","C32"])
