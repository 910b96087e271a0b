import Verif.Model.Keccak
/-!
# Seed tree: `Reference_Implementation/lib/seedtree.c`
-/
namespace LESS

/-- seedtree.c:4 `LEFT_CHILD(i)`. -/
def leftChild (i : Nat) : Nat := u32 (2 * i + 1)
/-- seedtree.c:5 `RIGHT_CHILD(i)`. -/
def rightChild (i : Nat) : Nat := u32 (2 * i + 2)
/-- seedtree.c:6 `PARENT(i)` on a `uint32_t`: `PARENT(0)` is `0x7FFFFFFF`. -/
def parent (i : Nat) : Nat := u32 (i + 4294967296 - 1) / 2

/-- The seed tree array: `unsigned char seed_tree[NUM_NODES_OF_SEED_TREE * SEED_LENGTH_BYTES]`. -/
abbrev TreeBuf (p : Params) := Vector UInt8 (p.numNodes * p.seedLen)

/-- `unsigned char flags_tree_to_publish[NUM_NODES_OF_SEED_TREE]` (values only compared with 0 and 1). -/
abbrev FlagTree (p : Params) := Vector Nat p.numNodes

variable {p : Params}

/-- seedtree.c:41-49 and 166-172 (same code): expand the two children of node `i`. -/
def expandChildren (salt : Bytes) (i : Nat) (tree : TreeBuf p) : C (TreeBuf p) := do
  let seed ← slice tree (i * p.seedLen) p.seedLen
  let (out, _) := csprngBytes p (2 * p.seedLen) (initCsprng p (salt ++ seed))
  blit tree (leftChild i * p.seedLen) out

/-- seedtree.c:25-51 `generate_seed_tree_from_root`. -/
def generateSeedTree (tree : TreeBuf p) (rootSeed salt : Bytes) : C (TreeBuf p) := do
  let tree ← blit tree 0 rootSeed
  forUp (p.numLeaves - 1) (fun i tree => expandChildren salt i tree) tree

/-- seedtree.c:89-90: copy the indices into the leaves, `memcpy` of `T` flags. -/
def copyLeafFlags (flags : FlagTree p) (indices : Vector Nat p.T) : C (FlagTree p) :=
  forUp p.T (fun k flags => do
    let x ← rd indices k
    wr flags (p.numLeaves - 1 + k) x) flags

/-- seedtree.c:77-99 `compute_seeds_to_publish`; the loop runs `i` from `NUM_LEAVES-2` down to 0. -/
def computeSeedsToPublish (flags : FlagTree p) (indices : Vector Nat p.T) : C (FlagTree p) := do
  let flags ← copyLeafFlags flags indices
  forUp (p.numLeaves - 1) (fun k flags => do
    let i := p.numLeaves - 2 - k
    let l ← rd flags (leftChild i)
    let r ← rd flags (rightChild i)
    wr flags i (b2n (l = 1 || r = 1))) flags

/-- seedtree.c:122-123: the (short-circuit) test whether node `i` is to be published. -/
def isPublished (flags : FlagTree p) (i : Nat) : C Bool := do
  let f ← rd flags i
  if f = 0 then do
    let pf ← rd flags (parent i)
    pure (decide (pf = 1))
  else pure false

/-- seedtree.c:103-132 `seed_tree_path`: the storage after the call, and the number of seeds. -/
def seedTreePath {n : Nat} (tree : TreeBuf p) (indices : Vector Nat p.T) (storage : Vector UInt8 n) :
    C (Vector UInt8 n × Nat) := do
  let flags ← computeSeedsToPublish (Vector.replicate p.numNodes 0) indices
  forUp (2 * p.numLeaves - 1) (fun i (s : Vector UInt8 n × Nat) => do
    let (storage, num) := s
    if ← isPublished flags i then do
      let seed ← slice tree (i * p.seedLen) p.seedLen
      let storage ← blit storage (num * p.seedLen) seed
      pure (storage, num + 1)
    else pure (storage, num)) (storage, 0)

/-- seedtree.c:136-178 `rebuild_seed_tree_leaves`: the tree after the call, and the number of seeds used. -/
def rebuildSeedTreeLeaves {n : Nat} (tree : TreeBuf p) (indices : Vector Nat p.T)
    (stored : Vector UInt8 n) (salt : Bytes) : C (TreeBuf p × Nat) := do
  let flags ← computeSeedsToPublish (Vector.replicate p.numNodes 0) indices
  forUp p.numNodes (fun i (s : TreeBuf p × Nat) => do
    let (tree, used) := s
    let f ← rd flags i
    if f = 0 then do
      let pf ← rd flags (parent i)
      let (tree, used) ←
        if pf = 1 then do
          let seed ← slice stored (p.seedLen * used) p.seedLen
          let tree ← blit tree (p.seedLen * i) seed
          pure (tree, used + 1)
        else pure (tree, used)
      if i < p.numLeaves - 1 then do
        let tree ← expandChildren salt i tree
        pure (tree, used)
      else pure (tree, used)
    else pure (tree, used)) (tree, 0)

end LESS
