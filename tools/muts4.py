M=[]
def m(file,defn,old,new,claim,props): M.append(dict(file=file,defn=defn,old=old,new=new,claim=claim,props=props))
X="Verif/Model/Experiments.lean"; E_="Verif/Model/Estimation.lean"
m(X,"parametricOmega","if otherOmega < gamma then","if gamma < otherOmega then","duality: wrong branch of lambertw",["C70"])
m(X,"parametricOmega","else -gamma * lambertw 0","else -gamma * lambertw (-1)","duality: wrong branch of lambertw",["C70"])
m(X,"parametricOmega","    -gamma * lambertw (-1) (-otherOmega * exp (-otherOmega / gamma) / gamma)","    gamma * lambertw (-1) (-otherOmega * exp (-otherOmega / gamma) / gamma)","duality: sign",["C70"])
m(X,"parametricOmega","-gamma * lambertw 0 (-otherOmega * exp (-otherOmega / gamma) / gamma)","-gamma * lambertw 0 (-otherOmega * exp (otherOmega / gamma) / gamma)","duality: exponent sign",["C70"])
m(X,"parametricOmega","if otherOmega < gamma then","if otherOmega ≤ gamma then","control: both branches agree on the diagonal",[])
m(X,"parametricOmega","if gamma = 0 then 0","if gamma = 0 then 1","gamma = 0 gives 0 (limit of the curve)",[])
m(X,"expectedGamma","pyDiv (K * (y - 1)) (y + K - 1)","pyDiv (K * (y - 1)) (y + K)","maximum gamma curve",["C71"])
m(X,"expectedGamma","let y ← pyDiv 1 x","let y ← pyDiv x 1","maximum gamma curve: x inverted",["C71"])
m(X,"expectedGamma","pyDiv a l","pyDiv l a","maximum gamma curve: quotient swapped",["C71"])
m(X,"possibleOmega",": ℝ := (K - x) / (K - 1)",": ℝ := (K - x) / K","line of possible parameters",["C71"])
m(X,"possibleOmega",": ℝ := (K - x) / (K - 1)",": ℝ := (K + x) / (K - 1)","line of possible parameters",["C71"])
m(E_,"insideWeight","return e.2 * (if a = b then 1 else 0)","return e.2 * (if a ≤ b then 1 else 0)","estimates depend only on the partition",["C72"])
m(E_,"kappaList","pyAddAt acc b e.2) (List.replicate n 0)","pyAddAt acc b 1) (List.replicate n 0)","estimates are scale invariant",["C73"])
m(E_,"layerWeights","pyAddAt acc l e.2) (List.replicate T 0)","pyAddAt acc l 1) (List.replicate T 0)","estimates are scale invariant",["C73"])
m(E_,"multilevelPersistence","pyAddAt acc l (if a = b then (1 : F) else 0)) (List.replicate T (0 : F))","pyAddAt acc l (if a ≤ b then (1 : F) else 0)) (List.replicate T (0 : F))","estimates depend only on the partition",["C72"])
m(E_,"omegaOutOf","if K > 1 then do","if K > 2 then do","possible parameters / max gamma",["C71","C24"])
m(E_,"guardedRatio","if b = 0 then .ok 0 else pyDiv a b","if b ≤ 1 then .ok 0 else pyDiv a b","estimates are scale invariant",["C73"])
m(E_,"multiplexOmega","pyDiv a (T * (b - c))","pyDiv a (2 * (b - c))","multiplex omega formula",["C30"])
