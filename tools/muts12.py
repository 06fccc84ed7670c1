M=[]
def m(file,defn,old,new,claim,props): M.append(dict(file="Verif/Model/"+file+".lean",defn=defn,old=old,new=new,claim=claim,props=props))
P="Performance"; D="DomainFigures"; C="Coefficients"
m(P,"singlelayerParallelization","let speedup ← pyDiv (ratio * duration) poolDuration\n","let speedup ← pyDiv (ratio * poolDuration) duration\n","speedup not slowdown",["C111"])
m(D,"easyDomains","layers \"temporal\" Gi domains","layers \"multiplex\" Gi domains","temporal estimates",["C113"])
m(D,"easyKs","true none (plotted (estimated ds))","false none (plotted (estimated ds))","axes swapped, as the plot requires",["C113"])
m(D,"lazegaStableFigure","(8 / 10, 1275 / 1000) false true\n    (plotted (stableDomains (lazegaTruncate (1 / 1000) ds)))","(8 / 10, 1275 / 1000) false true\n    (plotted (lazegaTruncate (1 / 1000) ds))","only stable domains are shown",["C113"])
m(D,"lazegaStableFigure","(8 / 10, 1275 / 1000) false true","(8 / 10, 1275 / 1000) true true","no dots in the right half",["C113"])
m(D,"lazegaRestrictedFigure","(4 / 10, 14 / 10) true true","(4 / 10, 14 / 10) false true","dots at the estimates",["C113"])
m(D,"lazegaRestrictedFigure","(4 / 10, 3) (4 / 10, 14 / 10)","(4 / 10, 3) (4 / 10, 13 / 10)","the limits of figure 5.9",["C113"])
m(D,"lazegaRestrictedFigure","(4 / 10, 14 / 10) true true\n    (plotted (stableDomains (lazegaTruncate (1 / 1000) ds)))","(4 / 10, 14 / 10) true true\n    (plotted (stableDomains (lazegaTruncate (1 / 100) ds)))","omega cut off at 2.999",["C113"])
m(D,"easyFigure","(6 / 10, 145 / 100) true true","(6 / 10, 145 / 100) false true","dots at the estimates",["C113"])
m(D,"lazegaFigure","(8 / 10, 1275 / 1000) true true","(8 / 10, 1275 / 1000) false true","dots at the estimates",["C113"])
m(C,"internalEdgeCount","return if a = b then 1 else 0","return if a = b then 0 else 1","edges within, not between, communities",["C118","C119","C06"])
m(C,"adjacencyCoefficient","return if directed then s else 2 * s","return if directed then 2 * s else s","doubled only if undirected",["C118","C119"])
