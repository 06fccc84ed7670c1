M=[]
def m(file,defn,old,new,claim,props): M.append(dict(file="Verif/Model/"+file+".lean",defn=defn,old=old,new=new,claim=claim,props=props))
R="Rounded"
m(R,"champ2DFrom","champ2DHalfspaces A P γ₀ γf)","champ2DHalfspaces A P γf γ₀)","the ranges tile the window",["C123"])
m(R,"champ2DFrom","champ2DHalfspaces A P γ₀ γf)","champ2DHalfspaces P A γ₀ γf)","nearly optimal throughout the range",["C123"])
m(R,"champ2DFrom","(facetsByHalfspace parts.length out).mapM (rangeOf parts)","(facetsByHalfspace (parts.length - 1) out).mapM (rangeOf parts)","a clear optimum is returned",["C123"])
m(R,"champ2DFrom","return pySortedBy (fun r => r.1) ranges","return ranges","consecutive ranges meet",["C123"])
m(R,"champ2DFrom","return pySortedBy (fun r => r.1) ranges","return pySortedBy (fun r => r.1) (ranges.drop 1)","the ranges tile the window",["C123"])
m(R,"champ2DRounded","(AP.1.map fl) (P.map fl)","(AP.1.map fl) (P.map fl).reverse","coefficients belong to their partition",["C123"])
m(R,"champ2DRounded","(AP.1.map fl) (P.map fl)","(P.map fl) (AP.1.map fl)","coefficients not swapped",["C123"])
m(R,"champ3DFrom","champ3DHalfspaces A P C γ₀ γf ω₀ ωf)","champ3DHalfspaces A P C ω₀ ωf γ₀ γf)","the domains cover the window",["C123"])
m(R,"champ3DRounded","(P.map fl) (APC.2.2.map fl)","(APC.2.2.map fl) (P.map fl)","gamma with the null model, omega with the coupling",["C123"])
m(R,"champ3DFrom","return (sortDomain f.2, part)","return (sortDomain (f.2.drop 1), part)","the domains cover the window",["C123"])
m(R,"champ3DFrom","env.qhull 3 hs x","env.qhull 3 (hs.drop 1) x","nearly optimal throughout the domain",["C123"])
m(R,"champ3DFrom","(facetsByHalfspace parts.length out).mapM fun f","(facetsByHalfspace (parts.length + 6) out).mapM fun f","input partitions only",["C123"])
