import Verif.Common
import Verif.Index.TreeProofs
/-!
# Stored objects: searching regions and reading on

Models db/object/region.h, region_iterator.h, meta.h (region references), meta_iterator.h, branch_iterator.h and the
consistency check of reader.h. A region is the list of its rows in stored order (region_row(region, pos) is the row number
`pos`; the byte layout is modelled in `Object/File.lean`). `int` positions are `Int`; they stay below 2^31 because a
region holds less than 2^31 rows. Reading a row outside of the region is undefined behaviour (the assert of region_row,
db/object/region.h:27, is compiled out in release builds).
-/
namespace Verif.Object
open Verif
variable {R : Type}

/-- db/object/region.h:24-33 region_row (also meta.h:55-63 meta_region): entry number `pos` -/
def rowAt (rows : List R) (pos : Int) : Res R :=
  if pos < 0 then .error .ub else
  match rows[pos.toNat]? with
  | some r => .ok r
  | none => .error .ub

/-- db/object/region_iterator.h:45-67 region_iterator_search: the loop; `fuel` bounds the number of rounds and is
chosen by the caller as the number of rows plus one (running out is reported as undefined behaviour, and is proved not to
happen). Returns the position and `*match`. -/
def regionSearchLoop (cmp : R → R → Int) (rows : List R) (row : R) : Nat → Int → Int → Res (Int × Bool)
  | 0, _, _ => .error .ub
  | fuel + 1, min, max =>
    if max ≥ min then
      let mid := min + (max - min) / 2
      match rowAt rows mid with
      | .error e => .error e
      | .ok cur =>
        let rc := cmp cur row
        if rc < 0 then regionSearchLoop cmp rows row fuel (mid + 1) max
        else if rc > 0 then regionSearchLoop cmp rows row fuel min (mid - 1)
        else .ok (mid, true)
    else .ok (min, false)

/-- db/object/region_iterator.h:45-67 region_iterator_search -/
def regionSearch (cmp : R → R → Int) (rows : List R) (row : R) : Res (Int × Bool) :=
  regionSearchLoop cmp rows row (rows.length + 1) 0 ((rows.length : Int) - 1)

/-- db/object/region_iterator.h:16-23 RegionIterator (it, keys omitted: the comparison is a parameter) -/
structure RegionIt (R : Type) where
  rows    : List R
  pos     : Int
  current : Option R
deriving DecidableEq, Repr

/-- db/object/region_iterator.h:25-36 region_iterator_set_pos -/
def RegionIt.setPos (it : RegionIt R) (pos : Int) : Res (RegionIt R) :=
  if pos < 0 ∨ pos ≥ it.rows.length then .ok { it with current := none, pos := 0 }
  else match rowAt it.rows pos with
    | .error e => .error e
    | .ok r => .ok { it with current := some r, pos := pos }

/-- db/object/region_iterator.h:69-90 region_iterator_open; `row = none` is a NULL key -/
def regionOpen (cmp : R → R → Int) (rows : List R) (row : Option R) : Res (RegionIt R × Bool) :=
  let it : RegionIt R := ⟨rows, 0, none⟩
  if rows.length = 0 then .ok (it, false) else
  match row with
  | none => match it.setPos 0 with
    | .error e => .error e
    | .ok it => .ok (it, false)
  | some row => match regionSearch cmp rows row with
    | .error e => .error e
    | .ok (pos, m) => match it.setPos pos with
      | .error e => .error e
      | .ok it => .ok (it, m)

/-- db/object/region_iterator.h:104-110 region_iterator_next -/
def RegionIt.next (it : RegionIt R) : Res (RegionIt R) :=
  match it.current with
  | none => .ok it
  | some _ => it.setPos (it.pos + 1)

/-- a region of an object: the reference kept in the index of the object (db/object/meta.h:20-31 MetaRegion: number of
rows, copy of the first and of the last row) and the rows the file holds. Offsets, sizes and crc: `Object/File.lean`. -/
structure Stored (R : Type) where
  count : Nat
  min   : R
  max   : R
  rows  : List R
deriving DecidableEq, Repr

/-- db/object/reader.h:60-88 reader_execute: read the region of a reference; the check of the number of rows -/
def readRegion (ref : Stored R) : Res (List R) :=
  if ref.rows.length = ref.count then .ok ref.rows else .error .err

/-- db/object/meta_iterator.h:34-52 meta_iterator_search: the loop `while (begin != end)` -/
def metaSearchLoop (cmp : R → R → Int) (refs : List (Stored R)) (row : R) : Nat → Int → Int → Res Int
  | 0, _, _ => .error .ub
  | fuel + 1, begin_, end_ =>
    if begin_ ≠ end_ then
      let mid := begin_ + (end_ - begin_) / 2
      match rowAt refs mid with
      | .error e => .error e
      | .ok ref =>
        if cmp ref.max row < 0 then metaSearchLoop cmp refs row fuel (mid + 1) end_
        else metaSearchLoop cmp refs row fuel begin_ mid
    else .ok (if end_ ≥ refs.length then (refs.length : Int) - 1 else end_)

/-- db/object/meta_iterator.h:34-52 meta_iterator_search -/
def metaSearch (cmp : R → R → Int) (refs : List (Stored R)) (row : R) : Res Int :=
  metaSearchLoop cmp refs row (refs.length + 1) 0 ((refs.length : Int) - 1)

/-- db/object/meta_iterator.h:16-23 MetaIterator: position and current reference -/
structure MetaIt (R : Type) where
  pos     : Int
  current : Option (Stored R)
deriving DecidableEq, Repr

/-- db/object/meta_iterator.h:54-85 meta_iterator_open -/
def metaOpen (cmp : R → R → Int) (refs : List (Stored R)) (row : Option R) : Res (MetaIt R) :=
  if refs.length = 0 then .ok ⟨0, none⟩ else
  match row with
  | none => match rowAt refs 0 with
    | .error e => .error e
    | .ok r => .ok ⟨0, some r⟩
  | some row =>
    match metaSearch cmp refs row with
    | .error e => .error e
    | .ok pos => match rowAt refs pos with
      | .error e => .error e
      | .ok ref =>
        let pos := if cmp ref.max row < 0 then pos + 1 else pos
        if pos ≥ refs.length then .ok ⟨pos, none⟩ else
        match rowAt refs pos with
        | .error e => .error e
        | .ok r => .ok ⟨pos, some r⟩

/-- db/object/meta_iterator.h:99-107 meta_iterator_next -/
def MetaIt.next (refs : List (Stored R)) (it : MetaIt R) : Res (MetaIt R) :=
  let pos := it.pos + 1
  if pos ≥ refs.length then .ok ⟨pos, none⟩ else
  match rowAt refs pos with
  | .error e => .error e
  | .ok r => .ok ⟨pos, some r⟩

/-- db/object/branch_iterator.h:16-26 BranchIterator; `refs` is the index of the branch. `current` of the code always
equals the current reference of the meta iterator (lines 55, 92), so it is not kept twice. -/
structure BranchIt (R : Type) where
  refs   : List (Stored R)
  meta_  : MetaIt R
  region : RegionIt R
deriving DecidableEq, Repr

/-- db/object/branch_iterator.h:28-40 branch_iterator_open_region -/
def openRegion (cmp : R → R → Int) (ref : Stored R) (row : Option R) : Res (RegionIt R × Bool) :=
  match readRegion ref with
  | .error e => .error e
  | .ok rows => regionOpen cmp rows row

/-- db/object/branch_iterator.h:42-61 branch_iterator_open -/
def branchOpen (cmp : R → R → Int) (refs : List (Stored R)) (row : Option R) : Res (BranchIt R × Bool) :=
  match metaOpen cmp refs row with
  | .error e => .error e
  | .ok m => match m.current with
    | none => .ok (⟨refs, m, ⟨[], 0, none⟩⟩, false)
    | some ref => match openRegion cmp ref row with
      | .error e => .error e
      | .ok (r, hit) => .ok (⟨refs, m, r⟩, hit)

/-- db/object/branch_iterator.h:69-73 branch_iterator_at -/
def BranchIt.at (it : BranchIt R) : Option R := it.region.current

/-- db/object/branch_iterator.h:84-98: the loop of branch_iterator_next, `fuel` rounds (the number of regions plus one) -/
def branchNextLoop (cmp : R → R → Int) : Nat → BranchIt R → Res (BranchIt R)
  | 0, _ => .error .ub
  | fuel + 1, it =>
    match it.region.current with
    | some _ => .ok it
    | none => match it.meta_.next it.refs with
      | .error e => .error e
      | .ok m => match m.current with
        | none => .ok { it with meta_ := m }
        | some ref => match openRegion cmp ref none with
          | .error e => .error e
          | .ok (r, _) => branchNextLoop cmp fuel ⟨it.refs, m, r⟩

/-- db/object/branch_iterator.h:75-99 branch_iterator_next -/
def BranchIt.next (cmp : R → R → Int) (it : BranchIt R) : Res (BranchIt R) :=
  match it.meta_.current with
  | none => .ok it
  | some _ => match it.region.next with
    | .error e => .error e
    | .ok r => branchNextLoop cmp (it.refs.length + 1) { it with region := r }

end Verif.Object
