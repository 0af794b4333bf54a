import Verif.Common
/-!
# Model of `PseudoLru` (hwtLib/amba/axi_comp/cache/pseudo_lru.py)

The lru register is a list of bits, bit 0 first. `n` is its width.
-/
namespace Verif.PseudoLru

/-- pseudo_lru.py:62-63 `lru_reg_width` -/
def regWidth (items : Nat) : Nat := 2 ^ log2ceil items - 1
/-- pseudo_lru.py:66-67 `lru_reg_items` -/
def regItems (width : Nat) : Nat := 2 ^ log2ceil (width + 1)

/-- hwt.math.isPow2 -/
def isPow2 (n : Nat) : Bool := n != 0 && n &&& (n - 1) == 0

/-- pseudo_lru.py:69-71: the assertion of `__init__`. -/
def accepted (width : Nat) : Bool := isPow2 (width - 1) || width == 1

/-- pseudo_lru.py:73-86 `node_selected_mask`: the tree items which are yielded. `fuel` bounds the depth of the
recursion (index at least doubles, `n` is enough). -/
def selected (n : Nat) (tree : List Bool) : Nat → Nat → List Bool
  | 0, _ => []
  | fuel + 1, i =>
    if 2 * i + 1 ≥ n then [tree.getD i false]
    else selected n tree fuel (2 * i + 1) ++ selected n tree fuel (2 * i + 2)

/-- pseudo_lru.py:10-11 `parity` -/
def parity (l : List Bool) : Bool := l.foldl (· ^^ ·) false

/-- pseudo_lru.py:88-99 `mark_use_many`; `lru_tree = [*lru_regs, *used_item_mask]`. -/
def markUse (regs mask : List Bool) : List Bool :=
  (List.range regs.length).map fun i =>
    regs.getD i false ^^ parity (selected regs.length (regs ++ mask) (regs.length + 1) i)

/-- pseudo_lru.py:101-117 `_build_node_paths`: conjunction of the path of node `i`, `pre` is the conjunction of the
prefix. Result: list of (node, value). -/
def paths (regs : List Bool) : Nat → Nat → Bool → List (Nat × Bool)
  | 0, _, _ => []
  | fuel + 1, i, pre =>
    if 2 * i + 1 ≥ regs.length then [(i, pre && !regs.getD i false)]
    else (i, pre && regs.getD i false) ::
      (paths regs fuel (2 * i + 1) (pre && !regs.getD i false) ++
       paths regs fuel (2 * i + 2) (pre && regs.getD i false))

/-- `And(*node_paths[i])` -/
def pathOf (regs : List Bool) (i : Nat) : Bool :=
  ((paths regs (regs.length + 1) 0 true).lookup i).getD false

/-- pseudo_lru.py:119-143 `get_lru`: the bits of the index, most significant first. -/
def getLruBits (regs : List Bool) : List Bool :=
  (List.range (log2ceil (regItems regs.length))).map fun l =>
    (List.range (2 ^ l)).any fun k => pathOf regs (2 ^ l - 1 + k)

/-- The index as a number. -/
def getLru (regs : List Bool) : Nat := (getLruBits regs).foldl (fun a b => 2 * a + b.toNat) 0

end Verif.PseudoLru
