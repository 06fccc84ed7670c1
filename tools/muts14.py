M=[]
def m(file,defn,old,new,claim,props): M.append(dict(file="Verif/Model/"+file+".lean",defn=defn,old=old,new=new,claim=claim,props=props))
R="RoundedPrune"
m(R,"roundEstimate","some (.fin (fle x))","some (.fin (fle (fle x)))","the estimate is rounded once",["C125"])
m(R,"roundEstimate","some (.fin (fle x))","some (.fin (-(fle x)))","sign of the estimate",["C125"])
m(R,"pruneToStableRounded","(e.1, e.2.1, e.2.2.1, roundEstimate","(e.2.1, e.1, e.2.2.1, roundEstimate","estimate between the ends",["C125"])
m(R,"pruneToStableRounded","(e.1, e.2.1, e.2.2.1, roundEstimate","(fle e.2.1, e.2.1, e.2.2.1, roundEstimate","estimate between the ends",["C125"])
m(R,"pruneToStableRounded","champ2DRounded fl env.toChampEnv G ps γ₀ γf","champ2DRounded fl env.toChampEnv G ps γ₀ (γf / 2)","completeness in the whole window",["C125"])
m(R,"pruneToStableRounded","champ2DRounded fl env.toChampEnv G ps γ₀ γf","champ2DRounded fl env.toChampEnv G (ps.drop 1) γ₀ γf","best of all candidates",["C125"])
m(R,"pruneToStableRounded","if ps.length = 0","if ps.length = 1","a single candidate is returned if its estimate is inside",["C125"])
m(R,"pruneToStableRounded","restrictParts env.setOrder restrict ps","restrictParts env.setOrder none ps","restriction respected",["C125"])
