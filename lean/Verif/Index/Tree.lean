import Verif.Index.Rbtree
/-!
# Ordered index (db/index/tree.c, db/index/tree_iterator.h, db/index/index_tree.c)

The tree is a red-black tree of pages; a page is the list of its `keys_count` rows (slots after `keys_count` are
not represented).  `cmp` is `compare(keys, ., .)`.  A page pointer is the in-order position of the page's node
(nodes keep their order; pointers are never copied between nodes by rbtree.c).  `none` results stand for
following a NULL pointer or reading rows[0] of an empty page: the theorems show that they do not happen.
-/
namespace Verif.Index

/-- struct Tree, tree.h:30-38 (keys and sizes are parameters) -/
structure Tree (R : Type) where
  tree : T (List R)
  countPages : Nat
  count : Nat
deriving DecidableEq, Repr

/-- struct TreePos, tree.h:24-28 -/
structure Pos where
  page : Nat
  pos : Nat
deriving DecidableEq, Repr

/-- tree_init, tree.c:16-28 -/
def Tree.init (R : Type) : Tree R := ⟨.nil, 0, 0⟩

variable {R : Type}

/-- the pages in order -/
def Tree.pages (t : Tree R) : List (List R) := t.tree.toList

/-- the loop of rbtree_get, rbtree.h:40-63, instantiated as tree_find (tree.c:75-82): `rc` and `last` are the
result of the last comparison and the node it was made with -/
def find (cmp : R → R → Int) (key : R) : T (List R) → Nat → Int → Option Nat → Option (Int × Nat)
  | .nil, _, rc, last => last.map fun i => (rc, i)
  | .node _ l page r, off, _, _ =>
    match page with
    | [] => none
    | h :: _ =>
      let rc := cmp h key
      let i := off + l.size
      if rc < 0 then find cmp key r (i + 1) rc (some i)
      else if rc > 0 then find cmp key l off rc (some i)
      else some (rc, i)

/-- tree_search_page_for_write, tree.c:84-102: page, page_rel, page_ref -/
def searchPage (cmp : R → R → Int) (t : T (List R)) (key : R) : Option (Nat × Int × Nat) :=
  match find cmp key t 0 0 none with
  | none => none
  | some (rel, ref) =>
    if rel = 1 ∧ ref > 0 then some (ref - 1, rel, ref)
    else some (ref, rel, ref)

/-- tree_search, tree.c:112-135: binary search. `hi` is `max + 1`; `fuel` bounds the number of iterations
(keys_count is always enough). Returns the position and *match. -/
def search (cmp : R → R → Int) (key : R) (page : List R) : Nat → Nat → Nat → Option (Nat × Bool)
  | 0, lo, hi => if hi > lo then none else some (lo, false)
  | fuel + 1, lo, hi =>
    if hi > lo then
      let mid := lo + (hi - 1 - lo) / 2
      match page[mid]? with
      | none => none
      | some row =>
        let rc := cmp row key
        if rc < 0 then search cmp key page fuel (mid + 1) hi
        else if rc > 0 then search cmp key page fuel lo mid
        else some (mid, true)
    else some (lo, false)

/-- write through a page pointer -/
def setAt : T (List R) → Nat → List R → T (List R)
  | .nil, _, _ => .nil
  | .node c l v r, i, page =>
    if i < l.size then .node c (setAt l i page) v r
    else if i = l.size then .node c l page r
    else .node c l v (setAt r (i - l.size - 1) page)

/-- memmove up by one and store, tree.c:165-170 -/
def insertAt (page : List R) (pos : Nat) (x : R) : List R := page.take pos ++ x :: page.drop pos

/-- tree_set_into, tree.c:137-174. Returns the tree, the new right page (if the page was split), and whether the
row went to it, with its position. -/
def setInto (sizePage sizeSplit : Nat) (t : Tree R) (p : Pos) (key : R) :
    Option (Tree R × Option (List R) × Bool × Nat) :=
  match t.tree.toList[p.page]? with
  | none => none
  | some page =>
    if page.length = sizePage then
      let l := page.take sizeSplit
      let r := page.drop sizeSplit
      if p.pos ≥ sizeSplit then
        let pos := p.pos - sizeSplit
        some ({ t with tree := setAt t.tree p.page l, count := t.count + 1 }, some (insertAt r pos key), true, pos)
      else
        some ({ t with tree := setAt t.tree p.page (insertAt l p.pos key), count := t.count + 1 },
          some r, false, p.pos)
    else
      some ({ t with tree := setAt t.tree p.page (insertAt page p.pos key), count := t.count + 1 },
        none, false, p.pos)

/-- tree_set, tree.c:176-191. The position is renumbered when the new page gets in. -/
def treeSet (cmp : R → R → Int) (sizePage sizeSplit : Nat) (t : Tree R) (p : Pos) (key : R) :
    Option (Tree R × Pos) :=
  match setInto sizePage sizeSplit t p key with
  | none => none
  | some (t1, none, _, pos) => some (t1, ⟨p.page, pos⟩)
  | some (t1, some split, inSplit, pos) =>
    match split with
    | [] => none
    | sh :: _ =>
      match searchPage cmp t1.tree sh with
      | none => none
      | some (_, rel, ref) =>
        match rbSet t1.tree (some ref) rel split with
        | none => none
        | some tree =>
          let at' := if rel > 0 then ref else ref + 1
          let page := if inSplit then at' else if at' ≤ p.page then p.page + 1 else p.page
          some ({ t1 with tree := tree, countPages := t1.countPages + 1 }, ⟨page, pos⟩)

/-- tree_upsert, tree.c:193-222: true when the key exists -/
def treeUpsert (cmp : R → R → Int) (sizePage sizeSplit : Nat) (t : Tree R) (key : R) :
    Option (Bool × Tree R × Pos) :=
  if t.countPages = 0 then
    match rbSet t.tree none 0 [key] with
    | none => none
    | some tree => some (false, ⟨tree, t.countPages + 1, t.count + 1⟩, ⟨0, 0⟩)
  else
    match searchPage cmp t.tree key with
    | none => none
    | some (pg, _, _) =>
      match t.tree.toList[pg]? with
      | none => none
      | some page =>
        match search cmp key page page.length 0 page.length with
        | none => none
        | some (pos, true) => some (true, t, ⟨pg, pos⟩)
        | some (pos, false) =>
          match treeSet cmp sizePage sizeSplit t ⟨pg, pos⟩ key with
          | none => none
          | some (t', p') => some (false, t', p')

/-- the row a position points to -/
def rowAt (t : Tree R) (p : Pos) : Option R := (t.tree.toList[p.page]?.getD [])[p.pos]?

/-- store through a position -/
def putAt (t : Tree R) (p : Pos) (x : R) : Tree R :=
  { t with tree := setAt t.tree p.page ((t.tree.toList[p.page]?.getD []).set p.pos x) }

/-- tree_replace, tree.c:224-233 -/
def treeReplace (cmp : R → R → Int) (sizePage sizeSplit : Nat) (t : Tree R) (key : R) :
    Option (Option R × Tree R) :=
  match treeUpsert cmp sizePage sizeSplit t key with
  | none => none
  | some (false, t', _) => some (none, t')
  | some (true, t', p) =>
    match rowAt t' p with
    | none => none
    | some prev => some (some prev, putAt t' p key)

/-- tree_delete with tree_delete_next, tree.c:235-280. The returned position is NULL or the row after the
removed one. -/
def treeDelete (t : Tree R) (p : Pos) : Option (Tree R × Option Pos) :=
  match t.tree.toList[p.page]? with
  | none => none
  | some page =>
    if p.pos < page.length then
      if page.length = 1 then
        match rbRemove t.tree p.page with
        | none => none
        | some tree =>
          some (⟨tree, t.countPages - 1, t.count - 1⟩,
            if p.page + 1 < t.tree.toList.length then some ⟨p.page, 0⟩ else none)
      else
        let t' : Tree R := { t with tree := setAt t.tree p.page (page.eraseIdx p.pos), count := t.count - 1 }
        if p.pos < page.length - 1 then some (t', some p)
        else some (t', if p.page + 1 < t.tree.toList.length then some ⟨p.page + 1, 0⟩ else none)
    else none

/-- tree_delete_by, tree.c:282-302 -/
def treeDeleteBy (cmp : R → R → Int) (t : Tree R) (key : R) : Option (Option R × Tree R) :=
  if t.countPages = 0 then some (none, t)
  else
    match searchPage cmp t.tree key with
    | none => none
    | some (pg, _, _) =>
      match t.tree.toList[pg]? with
      | none => none
      | some page =>
        match search cmp key page page.length 0 page.length with
        | none => none
        | some (_, false) => some (none, t)
        | some (pos, true) =>
          match page[pos]?, treeDelete t ⟨pg, pos⟩ with
          | some prev, some (t', _) => some (some prev, t')
          | _, _ => none

/-- tree_get, tree.c:304-325 (`key = none`: the first row) -/
def treeGet (cmp : R → R → Int) (t : Tree R) (key : Option R) : Option (Bool × Option Pos) :=
  if t.countPages = 0 then some (false, none)
  else
    match key with
    | none => some (false, some ⟨0, 0⟩)
    | some key =>
      match searchPage cmp t.tree key with
      | none => none
      | some (pg, _, _) =>
        match t.tree.toList[pg]? with
        | none => none
        | some page =>
          match search cmp key page page.length 0 page.length with
          | none => none
          | some (pos, m) => some (m, some ⟨pg, pos⟩)

/-- struct TreeIterator, tree_iterator.h:16-23; `loc` is page and page_pos, none when page is NULL -/
structure Iter (R : Type) where
  current : Option R
  loc : Option Pos
  repositioned : Bool
deriving DecidableEq, Repr

/-- tree_iterator_open, tree_iterator.h:25-48 -/
def iterOpen (cmp : R → R → Int) (t : Tree R) (key : Option R) : Option (Bool × Iter R) :=
  if t.count = 0 then some (false, ⟨none, none, false⟩)
  else
    match treeGet cmp t key with
    | none => none
    | some (_, none) => none
    | some (m, some p) =>
      match t.tree.toList[p.page]? with
      | none => none
      | some page =>
        if p.pos ≥ page.length then some (false, ⟨none, none, false⟩)
        else some (m, ⟨page[p.pos]?, some p, false⟩)

/-- tree_iterator_open_at, tree_iterator.h:50-57 -/
def iterOpenAt (t : Tree R) (p : Pos) : Iter R := ⟨rowAt t p, some p, false⟩

/-- tree_iterator_next, tree_iterator.h:71-107 -/
def iterNext (t : Tree R) (it : Iter R) : Iter R :=
  match it.current with
  | none => it
  | some _ =>
    if it.repositioned then
      match it.loc with
      | some p => ⟨rowAt t p, some p, false⟩
      | none => ⟨none, none, false⟩
    else
      match it.loc with
      | none => ⟨none, none, false⟩
      | some p =>
        if p.pos + 1 < (t.tree.toList[p.page]?.getD []).length then
          ⟨rowAt t ⟨p.page, p.pos + 1⟩, some ⟨p.page, p.pos + 1⟩, false⟩
        else if p.page + 1 < t.tree.toList.length then
          ⟨rowAt t ⟨p.page + 1, 0⟩, some ⟨p.page + 1, 0⟩, false⟩
        else ⟨none, none, false⟩

/-- tree_iterator_replace, tree_iterator.h:109-122 -/
def iterReplace (t : Tree R) (it : Iter R) (key : R) : Option (Tree R × Iter R) :=
  match it.loc with
  | none => none
  | some p => some (putAt t p key, { it with current := some key })

/-- tree_iterator_delete, tree_iterator.h:124-142 -/
def iterDelete (t : Tree R) (it : Iter R) : Option (Tree R × Iter R) :=
  match it.loc with
  | none => none
  | some p =>
    match treeDelete t p with
    | none => none
    | some (t', p') => some (t', ⟨rowAt t p, p', true⟩)

/-- what a statement does with a row it visits -/
inductive Act (R : Type) where
  | keep
  | replace (r : R)
  | delete

/-- a statement scanning the index: visit the current row, act on it through the iterator, move to the next
(the loop made by the cursor commands of vm.c around index_replace / index_delete, index_tree.c:34-66). Returns the rows visited
and the final tree; `none` if `fuel` visits were not enough. -/
def scanLoop (act : R → Act R) : Nat → Tree R → Iter R → Option (List R × Tree R)
  | fuel, t, it =>
    match it.current with
    | none => some ([], t)
    | some row =>
      match fuel with
      | 0 => none
      | fuel + 1 =>
        match (match act row with
          | .keep => some (t, it)
          | .replace r => iterReplace t it r
          | .delete => iterDelete t it) with
        | none => none
        | some (t', it') =>
          (scanLoop act fuel t' (iterNext t' it')).map fun (vs, t'') => (row :: vs, t'')

/-- open at a key (none: at the start) and visit until the end; every visit moves forward, so `count` visits are
enough for any terminating scan -/
def scan (cmp : R → R → Int) (act : R → Act R) (t : Tree R) (key : Option R) : Option (List R × Tree R) :=
  match iterOpen cmp t key with
  | none => none
  | some (_, it) => scanLoop act t.count t it

end Verif.Index
