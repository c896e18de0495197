import Verif.Model.Basic

/-!
Names of graph implementations: `/repo/src/graph_impl/mod.rs:34-53`.

Simplification: `str::to_lowercase` goes character by character through a table `lower` (the final form of
the Greek sigma depends on its surroundings; neither form is ASCII).
-/

namespace Verif

/-- `GraphImpl` (graph_impl/mod.rs:34-39). -/
inductive GraphImpl
  | graphMap | staticGraph | staticGraphMmap
  deriving DecidableEq, Repr

/-- `str::to_lowercase` with a given table. -/
def toLowercase (lower : Char → List Char) (s : String) : String := String.ofList (s.toList.flatMap lower)

/-- `GraphImpl::from_str` (graph_impl/mod.rs:41-53); the error carries the text in lower case. -/
def GraphImpl.fromStr (lower : Char → List Char) (s : String) : Except String GraphImpl :=
  let s := toLowercase lower s
  if s = "graphmap" then .ok .graphMap
  else if s = "staticgraph" then .ok .staticGraph
  else if s = "staticgraphmmap" then .ok .staticGraphMmap
  else .error s

end Verif
