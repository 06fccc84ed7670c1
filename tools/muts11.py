M=[]
def m(file,defn,old,new,claim,props): M.append(dict(file="Verif/Model/"+file+".lean",defn=defn,old=old,new=new,claim=claim,props=props))
D="DualityFigures"; C="Calls"
m(D,"dualityAbscissa","linspace 0 3 1000","linspace 0 2 1000","curves up to the limit of the axis",["C116"])
m(D,"bandStarts","linspace 0 3 11","linspace 0 3 10","bands of width 0.3",["C116"])
m(D,"contour","dualityAbscissa.map (parametricOmega lambertw γ)","dualityAbscissa.map fun x => parametricOmega lambertw x γ","contour of gamma over omega_in",["C116"])
m(D,"dualityBands","(bandStarts.zip contours,","(bandStarts.zip contours.reverse,","curves coloured by their estimate",["C116"])
m(D,"dualityBands","bandStarts[i]?, contours[i]?, contours[i + 1]?","bandStarts[i + 1]?, contours[i]?, contours[i + 1]?","band coloured by its lower estimate",["C116"])
m(D,"dualityBands","if i + 1 < contours.length then","if i + 2 < contours.length then","ten bands",["C116"])
m(D,"dualityCurves","fun γ => (γ, contour lambertw γ)","fun γ => (γ, contour lambertw (γ + 1 / 10))","curve with its label",["C116"])
m(D,"dualityRanges","contour lambertw (γ - 1 / 10), contour lambertw (γ + 1 / 10)⟩","contour lambertw γ, contour lambertw (γ + 1 / 10)⟩","band gamma +- 0.1",["C116"])
m(D,"dualityRanges","contour lambertw (γ - 1 / 10), contour lambertw (γ + 1 / 10)⟩","contour lambertw (γ + 1 / 10), contour lambertw (γ - 1 / 10)⟩","band from low to high",["C116"])
m(D,"gammaCenters","[1 / 2, 1, 3 / 2, 2]","[1 / 2, 1, 3 / 2]","four curves",["C116"])
m(C,"bindKeyword","| some none => .ok (slots.set i (some kv.2))\n    | _ => .error .typeError","| some _ => .ok (slots.set i (some kv.2))\n    | _ => .error .typeError","argument given twice is an error",["C117"])
m(C,"bindKeyword","  | none => .error .typeError\n  | some i =>","  | none => .ok slots\n  | some i =>","unknown keyword is an error",["C117"])
m(C,"bindDefault","    | some d => .ok d\n    | none => .error .typeError","    | some d => .ok d\n    | none => .error .valueError","missing argument is a TypeError",["C117"])
m(C,"bindDefault","  | some v => .ok v\n  | none => match","  | some v => .ok (ps.1.default.getD v)\n  | none => match","argument wins over default",["C117"])
m(C,"bindArgs","if sig.length < pos.length then .error .typeError\n  else","if sig.length + 1 < pos.length then .error .typeError\n  else","too many arguments",["C117"])
m(C,"leidenSignatures",'("repeated_parallel_leiden_from_gammas", [required "G", required "gammas", optional "show_progress" (.bool true)])','("repeated_parallel_leiden_from_gammas", [required "G", required "gammas", optional "show_progress" (.bool true), optional "chunk_dispatch" (.bool true)])',"the Leiden function has no chunk_dispatch",["C117"])
m(C,"leidenSignatures",'("singlelayer_leiden", [required "G", required "gamma", optional','("singlelayer_leiden", [required "G", required "gamma", required "seed", optional',"estimation loop test calls with two arguments",["C117"])
m(C,"louvainSignatures",'required "gammas", required "omegas", optional "show_progress" (.bool true), optional "chunk_dispatch"','required "gamma_values", required "omegas", optional "show_progress" (.bool true), optional "chunk_dispatch"',"manual CHAMP passes gammas by keyword",["C117"])
m(C,"callDeprecated","    | .leiden n => signatureOf leidenSignatures n","    | .leiden n => signatureOf louvainSignatures n","signature of the Leiden function",["C117"])
m(C,"callDeprecated","  return (attr, args)","  return (attr, args.reverse)","arguments in order",["C117"])
m(C,"staleCallSite",'[("show_progress", .bool false), ("chunk_dispatch", .bool false)])','[("show_progress", .bool false)])',"(repair) the study would run",["C117"])
m(C,"hierarchicalRunLouvain","let f ← Run.ofPy (callDeprecated inst site.1 site.2.1 site.2.2)","let f ← Run.ofPy (callDeprecated inst site.1 site.2.1 (site.2.2.take 1))","(repair) the study would run",["C117"])
m(C,"generateRuntimes","parts.length :: rest.2.2)","n :: rest.2.2)","numbers of distinct partitions",["C117"])
m(C,"generateRuntimes","(clock (4 * i + 1) - clock (4 * i)) :: rest.1","(clock (4 * i + 3) - clock (4 * i)) :: rest.1","duration of the Louvain runs",["C117"])
m(C,"generateRuntimes","(linspace 0 3 n)] kws)","(linspace 0 2 n)] kws)","gammas up to 3",["C117"])
m(C,"benchmarkLoop","if our < timeout then","if our ≤ timeout then","stop at the limit",["C117"])
m(C,"benchmarkLoop","(champs i) (iters + iters / 2)).map","(champs i) (iters + iters)).map","runs grow by half",["C117"])
m(C,"benchmarkLoop","if last < timeout then","if champs i < timeout then","CHAMP is not run after it took the limit",["C117"])
m("LouvainPart","leidenNames",'"repeated_parallel_leiden_from_gammas",\n','"repeated_parallel_leiden_from_gamma",\n',"shim finds the function",["C117","C112"])
