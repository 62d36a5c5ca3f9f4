import Verif.Model.Dag

/-!
# Graph display helpers (`src/ezmsg/core/graph_util.py`)

A graph dictionary is a `Graph`: keys with sets of targets. The order of a set is the order of its list, so
statements about all lists cover every iteration order.
-/

namespace Ez
namespace GraphUtil
variable {T : Type} [DecidableEq T]

/-- `source_nodes`: graph_util.py:27-30. -/
def sourceNodes (g : Graph T) : List T := (g.filter (fun p => decide (0 < p.2.length))).map (·.1)

/-- The inner loop of graph_util.py:32-35: targets that are sources and not yet listed. -/
def addProxies (src : List T) (acc : List T) (conns : PySet T) : List T :=
  conns.foldl (fun acc c => if c ∈ src ∧ c ∉ acc then acc ++ [c] else acc) acc

/-- `proxy_topics`: graph_util.py:31-35. -/
def proxyTopics (g : Graph T) : List T := g.foldl (fun acc p => addProxies (sourceNodes g) acc p.2) []

/-- graph_util.py:41-45 for one node: if the proxy is among its targets it is replaced by the targets of the
proxy. (The inner loop over the old set meets the proxy at most once.) -/
def replaceProxy (p : T) (downstreams conns : PySet T) : PySet T :=
  if p ∈ conns then downstreams.foldl PySet.add (PySet.discard conns p) else conns

/-- graph_util.py:38-45: one proxy is taken out; `none` is the `KeyError` of `pop`. -/
def removeProxy (g : Graph T) (p : T) : Option (Graph T) :=
  match PyDict.get? g p with
  | none => none
  | some ds => some ((PyDict.pop g p).map (fun n => (n.1, replaceProxy p ds n.2)))

/-- The loop of graph_util.py:38-45. -/
def removeProxies : List T → Graph T → Option (Graph T)
  | [], g => some g
  | p :: ps, g => (removeProxy g p).bind (removeProxies ps)

/-- `prune_graph_connections`: graph_util.py:10-47. -/
def pruneGraphConnections (g : Graph T) : Option (Graph T × List T) :=
  (removeProxies (proxyTopics g) g).map (fun g' => (g', proxyTopics g))

end GraphUtil
end Ez
