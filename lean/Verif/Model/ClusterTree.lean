import Verif.Model.IndexRange

/-
Model of `src/classes/initialization_helpers/cluster_tree.cpp`.
-/

namespace Verif

/-- The data members of `class ClusterTree` other than `parent` and `children`
(include/FRANK/classes/initialization_helpers/cluster_tree.h:37-74). -/
structure NodeInfo where
  rows : IndexRange
  cols : IndexRange
  /-- `block_dim[0]` -/
  br : Nat
  /-- `block_dim[1]` -/
  bc : Nat
  nleaf : Int
  level : Int
  /-- `rel_pos` -/
  relRow : Int
  relCol : Int
  /-- `abs_pos` -/
  absRow : Int
  absCol : Int
deriving DecidableEq, Inhabited, Repr

/-- `class ClusterTree`.  The row-major vector `children` (accessed as
`children[i*block_dim[1]+j]`, cluster_tree.cpp:63-69) is represented by a
function of `(i,j)`; only `i < block_dim[0]`, `j < block_dim[1]` is meaningful.
`leaf` is a node with an empty `children` vector. The `parent` pointer is not
stored; functions that use it take the parent as an argument. -/
inductive ClusterTree where
  | leaf (info : NodeInfo)
  | node (info : NodeInfo) (children : Nat → Nat → ClusterTree)

instance : Inhabited ClusterTree := ⟨.leaf default⟩

namespace ClusterTree

/-- The members of the root of a tree. -/
def info : ClusterTree → NodeInfo
  | .leaf i => i
  | .node i _ => i

/-- `ClusterTree::is_leaf`, cluster_tree.cpp:75-82. -/
def isLeaf (t : NodeInfo) : Bool :=
  (decide (t.rows.n ≤ t.nleaf) && decide (t.cols.n ≤ t.nleaf)) || decide (t.nleaf = 0)

/-- The arguments of the recursive constructor call, cluster_tree.cpp:28-41. -/
def childInfo (t : NodeInfo) (i j : Nat) : NodeInfo :=
  { rows := t.rows.splitChild t.br i
    cols := t.cols.splitChild t.bc j
    br := t.br, bc := t.bc, nleaf := t.nleaf
    level := t.level + 1
    relRow := i, relCol := j
    absRow := t.absRow * t.br + i
    absCol := t.absCol * t.bc + j }

/-- Constructor `ClusterTree::ClusterTree`, cluster_tree.cpp:14-45, with a
budget for the recursion depth.  `isRoot` is `parent == nullptr`.  The elements
`row_subranges[i]`, `col_subranges[j]` are those of `IndexRange::split`
(`IndexRange.getElem_split`). -/
def build : Nat → Bool → NodeInfo → Except Err ClusterTree
  | 0, _, _ => .error .fuel
  | fuel + 1, isRoot, t =>
    if isRoot || !isLeaf t then do
      let ch ← collect2 t.br t.bc (fun i j => build fuel false (childInfo t i j))
      .ok (.node t ch)
    else .ok (.leaf t)

/-- The arguments with which users construct a tree: default values of
cluster_tree.h:121-129, as used by `Hierarchical`, hierarchical.cpp:83-85. -/
def rootInfo (rows cols : IndexRange) (br bc : Nat) (nleaf : Int) : NodeInfo :=
  { rows, cols, br, bc, nleaf, level := 0, relRow := 0, relCol := 0, absRow := 0, absCol := 0 }

/-- `ClusterTree::dist_to_diag`, cluster_tree.cpp:71-73. -/
def distToDiag (t : NodeInfo) : Int := ((t.absRow - t.absCol).natAbs : Int)

/-- `ClusterTree::operator()`, cluster_tree.cpp:63-69: indexing the empty
`children` vector of a leaf (or past its end) is undefined behaviour. -/
def get : ClusterTree → Int → Int → Except Err ClusterTree
  | .leaf _, _, _ => .error .ub
  | .node t ch, i, j =>
    -- position in the row-major vector
    let pos := i * t.bc + j
    if 0 ≤ pos ∧ pos < t.br * t.bc then
      .ok (ch (pos / t.bc).toNat (pos % t.bc).toNat)
    else .error .ub

/-- `ClusterTree::get_block_row`, cluster_tree.cpp:84-91.  `parent = none` is the
null pointer of the root. -/
def getBlockRow (t : NodeInfo) (parent : Option ClusterTree) : Except Err (List ClusterTree) :=
  match parent with
  | none => .error .ub
  | some p => (List.range p.info.bc).mapM (fun (j : Nat) => p.get t.relRow (j : Int))

/-- `ClusterTree::get_block_col`, cluster_tree.cpp:93-100. -/
def getBlockCol (t : NodeInfo) (parent : Option ClusterTree) : Except Err (List ClusterTree) :=
  match parent with
  | none => .error .ub
  | some p => (List.range p.info.br).mapM (fun (i : Nat) => p.get (i : Int) t.relCol)

/-- Follow child positions downwards: the node at path `p` (not part of the
code, used to talk about all nodes of a tree). -/
def at? : ClusterTree → List (Nat × Nat) → Option ClusterTree
  | t, [] => some t
  | .leaf _, _ :: _ => none
  | .node t ch, (i, j) :: p => if i < t.br ∧ j < t.bc then (ch i j).at? p else none

end ClusterTree
end Verif
