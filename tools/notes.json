{
 "C33": [
  "partial",
  "False of the code as stated: c33_not_bounded exhibits parameters whose temporal and multiplex estimates exceed omega_max=1000. c33_omega_max_partial gives the exact condition under which the bound holds."
 ],
 "C37": [
  "partial",
  "c37_none_not_stable_partial: a domain whose gamma or omega estimate is None is never stable. The stronger reading (undefined, i.e. NaN, estimates are never stable) is false of the code: c37_nan_is_stable."
 ],
 "C54": [
  "partial",
  "False in general: lru_cache is keyed on igraph Edge objects (graph object and index), so in-place changes of weights or endpoints are not noticed (c54_stale, c54_same_key). Proved: correct after every history without in-place modification, and after any history whose calls had other keys."
 ],
 "C58": [
  "partial",
  "Two clauses are false of the code: unknown names without 'louvain' are silently None (c58_other_names_give_none), and without the package the check raises NameError even with fatal=False (c58_missing_package). Proved: the forwarding, and the exact conditions under which lookups and checks raise."
 ],
 "C57": [
  "partial",
  "False of the code: on a graph with weights other than 1 either the gamma estimates use them and change the result (c57_weights_matter) or, if igraph's membership test denies them, they are overwritten (c57_weights_lost). Proved: CHAMP ignores all weights; both pipelines return the same on graphs that count as unweighted; multilayer pruning ignores interlayer weights; exact effect on the caller's graph."
 ],
 "C60": [
  "partial",
  "False for the documented argument types (tuple and list): layer_vec == layer is False, so every cell shows the community of vertex 0 (c60_documented_types, c60_documented_types_wrong). Proved: correct for numpy arrays with equal layer sizes; unequal sizes raise ValueError; mixed types raise."
 ],
 "C67": [
  "partial",
  "False as stated: a domain that meets (or covers) the window without having a vertex in it is not drawn (c67_covering_domain_missing). Proved: exactly the domains with a vertex in the window are drawn, with their values; exact conditions for returning."
 ]
}