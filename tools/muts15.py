M=[]
def m(file,defn,old,new,claim,props): M.append(dict(file="Verif/Model/"+file+".lean",defn=defn,old=old,new=new,claim=claim,props=props))
R="RoundedPrune3D"
D="pruneToMultilayerRounded"
m(R,D,"roundEstimate fle e.2.2.1, fle e.2.2.2","e.2.2.1, fle e.2.2.2","the estimate of gamma is the rounded one",["C126"])
m(R,D,"fle e.2.2.2","fle (fle e.2.2.2)","the estimate of omega is rounded once",["C126"])
m(R,D,"fle e.2.2.2","- fle e.2.2.2","sign of the estimate of omega",["C126"])
m(R,D,"truncateOmegas ωf","truncateOmegas ω₀","omega is cut at the upper end of the window",["C126"])
m(R,D,"layerVec ps γ₀ γf ω₀ ωf","layerVec (ps.drop 1) γ₀ γf ω₀ ωf","best of all candidates",["C126"])
m(R,D,"layerVec ps γ₀ γf ω₀ ωf","layerVec ps γ₀ γf ω₀ (ωf / 2)","completeness in the whole window",["C126"])
m(R,D,"restrictParts env.setOrder restrict ps","restrictParts env.setOrder none ps","restriction respected",["C126"])
m(R,D,"if ps.length = 0","if ps.length = 1","a single candidate is returned if its estimate is inside",["C126"])
m(R,D,"if singleThreaded then","if !singleThreaded then","the run without single_threaded returns",["C126"])
m(R,D,"estG.2)","Gx)","the graph returned is the one of the estimates",["C126"])
