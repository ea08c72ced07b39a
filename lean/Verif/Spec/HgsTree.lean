import Verif.Model.Hgs
import Mathlib.Data.List.Basic

/-! # What a well-formed tree of HGS nodes is (only the data types of the model are used) -/

namespace Evogil.Hgs

/-- `nodes` and `level_nodes` describe one tree. -/
structure Tree {D K : Type*} (maxLevel : ℕ) (st : State D K) : Prop where
  /-- the first node is on level 0 -/
  root : (st.nodes[0]?).map Node.level = some 0
  /-- every other node is exactly once the sprout of a node -/
  once : (st.nodes.flatMap Node.sprouts).Perm (List.range' 1 (st.nodes.length - 1))
  /-- a sprout is younger than its parent and one level below -/
  child : ∀ (p : ℕ) (n : Node D K) (s : ℕ), st.nodes[p]? = some n → s ∈ n.sprouts →
    p < s ∧ (st.nodes[s]?).map Node.level = some (n.level + 1)
  depth : ∀ n ∈ st.nodes, n.level ≤ maxLevel
  /-- `level_nodes` lists the nodes of every level in the order of creation -/
  levels : st.levels = [0, 1, 2].map fun l =>
    (List.range st.nodes.length).filter fun i => (st.nodes[i]?).map Node.level = some l

end Evogil.Hgs
