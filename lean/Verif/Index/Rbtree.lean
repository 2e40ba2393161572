/-!
# Red-black tree (runtime/lib/rbtree.h, runtime/lib/rbtree.c)

The pointer tree is modelled by a functional tree together with a zipper: the list of frames is the chain of
parent pointers from a node up to the root.  A node is identified by its in-order position, and
rbtree_next / rbtree_prev (rbtree.c:355-389), which walk to the in-order neighbour, are position ± 1.
Colour RBTREE_UNDEF (a node outside of the tree) is not modelled.
-/
namespace Verif.Index

inductive Color where
  | red | black
deriving DecidableEq, Repr

/-- struct RbtreeNode with its payload, rbtree.h:17-22 -/
inductive T (α : Type) where
  | nil
  | node (c : Color) (l : T α) (v : α) (r : T α)
deriving DecidableEq, Repr

/-- one parent pointer: `L`: we are its left child -/
inductive Frame (α : Type) where
  | L (c : Color) (v : α) (r : T α)
  | R (c : Color) (l : T α) (v : α)

variable {α : Type}

/-- in-order contents -/
def T.toList : T α → List α
  | .nil => []
  | .node _ l v r => l.toList ++ v :: r.toList

def T.size (t : T α) : Nat := t.toList.length

/-- color of a node; NULL counts as black (rbtree.c:87, 244-245) -/
def T.color : T α → Color
  | .nil => .black
  | .node c _ _ _ => c

/-- `n->color = RBTREE_BLACK` -/
def T.blacken : T α → T α
  | .nil => .nil
  | .node _ l v r => .node .black l v r

def Frame.color : Frame α → Color
  | .L c _ _ => c
  | .R c _ _ => c

/-- follow the parent pointers to the root -/
def zip : T α → List (Frame α) → T α
  | n, [] => n
  | n, .L c v r :: up => zip (.node c n v r) up
  | n, .R c l v :: up => zip (.node c l v n) up

/-- the subtree and chain of parents of the node at in-order position `i` -/
def locate : T α → Nat → List (Frame α) → Option (Color × T α × α × T α × List (Frame α))
  | .nil, _, _ => none
  | .node c l v r, i, path =>
    if i < l.size then locate l i (.L c v r :: path)
    else if i = l.size then some (c, l, v, r, path)
    else locate r (i - l.size - 1) (.R c l v :: path)

/-- set_fixup, rbtree.c:77-120, without the final recoloring of the root; `n` is the red node.
A red parent always has a parent (the root is black); that unreachable case stops the loop here.
Cases: uncle red (88-92, 105-109), inner child (94-98, 111-115), outer child (99-101, 116-118). -/
def fixup : T α → List (Frame α) → T α
  | n, [] => n
  | n, [f] => zip n [f]
  | n, f :: g :: up =>
    if f.color = .black then zip n (f :: g :: up)
    else
      match g with
      | .L gc gv u =>            -- p == g->l
        if u.color = .red then
          match f with
          | .L _ pv pr => fixup (.node .red (.node .black n pv pr) gv u.blacken) up
          | .R _ pl pv => fixup (.node .red (.node .black pl pv n) gv u.blacken) up
        else
          match f, n with
          | .R pc pl pv, .node _ nl nv nr => zip (.node .black (.node pc pl pv nl) nv (.node .red nr gv u)) up
          | .L _ pv pr, n => zip (.node .black n pv (.node .red pr gv u)) up
          | f, n => zip n (f :: .L gc gv u :: up)
      | .R gc u gv =>            -- p == g->r
        if u.color = .red then
          match f with
          | .L _ pv pr => fixup (.node .red u.blacken gv (.node .black n pv pr)) up
          | .R _ pl pv => fixup (.node .red u.blacken gv (.node .black pl pv n)) up
        else
          match f, n with
          | .L pc pv pr, .node _ nl nv nr => zip (.node .black (.node .red u gv nl) nv (.node pc nr pv pr)) up
          | .R _ pl pv, n => zip (.node .black (.node .red u gv pl) pv n) up
          | f, n => zip n (f :: .R gc u gv :: up)

/-- rbtree_set, rbtree.c:122-140: attach `x` below the node at position `i` (left when `prel > 0`), or as the
root of an empty tree (`i = none`). The child pointer is overwritten. -/
def rbSet (t : T α) (i : Option Nat) (prel : Int) (x : α) : Option (T α) :=
  match i with
  | none => some (fixup (.node .red .nil x .nil) []).blacken
  | some i =>
    match locate t i [] with
    | none => none
    | some (c, l, v, r, path) =>
      let path := if prel > 0 then Frame.L c v r :: path else Frame.R c l v :: path
      some (fixup (.node .red .nil x .nil) path).blacken

/-- leftmost node of a subtree, rbtree.c:177-179: its colour, value, right child and the frames below the
subtree's parent -/
def minSplit : T α → List (Frame α) → Option (Color × α × T α × List (Frame α))
  | .nil, _ => none
  | .node c .nil v r, acc => some (c, v, r, acc)
  | .node c (.node lc ll lv lr) v r, acc => minSplit (.node lc ll lv lr) (.L c v r :: acc)

/-- The rebalancing loop of rbtree_remove, rbtree.c:224-300; `n` is black (or NULL) and lacks one black node.
`none` when a NULL pointer would be followed. -/
def fixDel : T α → List (Frame α) → Option (T α)
  | n, [] => some n.blacken
  | n, .L pc pv s :: up =>
    match s with
    | .nil => none
    | .node .red sl sv sr =>
      -- s red: recolour, rotate_left(p); the new sibling is sl
      match sl with
      | .nil => none
      | .node _ xl xv xr =>
        let up' := .L .black sv sr :: up
        if xl.color = .black ∧ xr.color = .black then
          -- n = p (red): loop ends, p becomes black
          some (zip (.node .black n pv (.node .red xl xv xr)) up')
        else if xr.color = .black then
          match xl with
          | .nil => none
          | .node _ yl yv yr =>
            -- rotate_right(s); then s = y
            some (zip (.node .red (.node .black n pv yl) yv (.node .black yr xv xr)) up').blacken
        else
          some (zip (.node .red (.node .black n pv xl) xv xr.blacken) up').blacken
    | .node .black xl xv xr =>
        if xl.color = .black ∧ xr.color = .black then
          -- s red, n = p
          if pc = .black then fixDel (.node pc n pv (.node .red xl xv xr)) up
          else some (zip (.node .black n pv (.node .red xl xv xr)) up)
        else if xr.color = .black then
          match xl with
          | .nil => none
          | .node _ yl yv yr =>
            some (zip (.node pc (.node .black n pv yl) yv (.node .black yr xv xr)) up).blacken
        else
          some (zip (.node pc (.node .black n pv xl) xv xr.blacken) up).blacken
  | n, .R pc s pv :: up =>
    match s with
    | .nil => none
    | .node .red sl sv sr =>
      match sr with
      | .nil => none
      | .node _ xl xv xr =>
        let up' := .R .black sl sv :: up
        if xl.color = .black ∧ xr.color = .black then
          some (zip (.node .black (.node .red xl xv xr) pv n) up')
        else if xl.color = .black then
          match xr with
          | .nil => none
          | .node _ yl yv yr =>
            some (zip (.node .red (.node .black xl xv yl) yv (.node .black yr pv n)) up').blacken
        else
          some (zip (.node .red xl.blacken xv (.node .black xr pv n)) up').blacken
    | .node .black xl xv xr =>
        if xl.color = .black ∧ xr.color = .black then
          if pc = .black then fixDel (.node pc (.node .red xl xv xr) pv n) up
          else some (zip (.node .black (.node .red xl xv xr) pv n) up)
        else if xl.color = .black then
          match xr with
          | .nil => none
          | .node _ yl yv yr =>
            some (zip (.node pc (.node .black xl xv yl) yv (.node .black yr pv n)) up).blacken
        else
          some (zip (.node pc xl.blacken xv (.node .black xr pv n)) up).blacken

/-- the end of rbtree_remove, rbtree.c:217-222: `color` is the colour of the node that left its place -/
def delFinish (color : Color) (n : T α) (path : List (Frame α)) : Option (T α) :=
  if color = .red then some (zip n path)
  else if n.color = .red then some (zip n.blacken path)
  else fixDel n path

/-- rbtree_remove, rbtree.c:162-303, of the node at position `i` -/
def rbRemove (t : T α) (i : Nat) : Option (T α) :=
  match locate t i [] with
  | none => none
  | some (c, l, _, r, path) =>
    match l, r with
    | .nil, r => delFinish c r path
    | l, .nil => delFinish c l path
    | l, r =>
      match minSplit r [] with
      | none => none
      | some (xc, xv, xr, fs) => delFinish xc xr (fs ++ .R c l xv :: path)

end Verif.Index
