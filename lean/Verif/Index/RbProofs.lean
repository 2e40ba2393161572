import Verif.Index.Rbtree
/-!
# In-order and balance laws of the red-black tree
-/
set_option linter.unusedSimpArgs false
namespace Verif.Index
variable {α : Type}

/-! ## in-order contents -/

/-- contents before / after the hole of a chain of parents -/
def before : List (Frame α) → List α
  | [] => []
  | .L _ _ _ :: up => before up
  | .R _ l v :: up => before up ++ (l.toList ++ [v])

def after : List (Frame α) → List α
  | [] => []
  | .L _ v r :: up => v :: r.toList ++ after up
  | .R _ _ _ :: up => after up

theorem toList_zip (n : T α) (path : List (Frame α)) :
    (zip n path).toList = before path ++ n.toList ++ after path := by
  induction path generalizing n with
  | nil => simp [zip, before, after]
  | cons f up ih =>
    cases f <;> simp [zip, ih, T.toList, before, after]

@[simp] theorem toList_blacken (t : T α) : t.blacken.toList = t.toList := by
  cases t <;> rfl

@[simp] theorem blacken_blacken (t : T α) : t.blacken.blacken = t.blacken := by
  cases t <;> rfl

theorem toList_fixup (n : T α) (path : List (Frame α)) :
    (fixup n path).toList = before path ++ n.toList ++ after path := by
  fun_induction fixup n path <;>
    simp_all [toList_zip, T.toList, before, after, zip]

theorem before_append (fs up : List (Frame α)) : before (fs ++ up) = before up ++ before fs := by
  induction fs with
  | nil => simp [before]
  | cons f fs ih => cases f <;> simp [before, ih]

theorem after_append (fs up : List (Frame α)) : after (fs ++ up) = after fs ++ after up := by
  induction fs with
  | nil => simp [after]
  | cons f fs ih => cases f <;> simp [after, ih]

theorem toList_fixDel (n : T α) (path : List (Frame α)) (t : T α) (h : fixDel n path = some t) :
    t.toList = before path ++ n.toList ++ after path := by
  induction path generalizing n with
  | nil => simp only [fixDel, Option.some.injEq] at h; subst h; simp [before, after]
  | cons f up ih =>
    cases f with
    | L pc pv s =>
      unfold fixDel at h
      split at h
      · contradiction
      · split at h
        · contradiction
        · dsimp only at h
          split at h
          · simp only [Option.some.injEq] at h; subst h
            simp [toList_zip, T.toList, before, after]
          · split at h
            · split at h
              · contradiction
              · simp only [Option.some.injEq] at h; subst h
                simp [toList_zip, T.toList, before, after]
            · simp only [Option.some.injEq] at h; subst h
              simp [toList_zip, T.toList, before, after]
      · split at h
        · split at h
          · rw [ih _ h]; simp [T.toList, before, after]
          · simp only [Option.some.injEq] at h; subst h
            simp [toList_zip, T.toList, before, after]
        · split at h
          · split at h
            · contradiction
            · simp only [Option.some.injEq] at h; subst h
              simp [toList_zip, T.toList, before, after]
          · simp only [Option.some.injEq] at h; subst h
            simp [toList_zip, T.toList, before, after]
    | R pc s pv =>
      unfold fixDel at h
      split at h
      · contradiction
      · split at h
        · contradiction
        · dsimp only at h
          split at h
          · simp only [Option.some.injEq] at h; subst h
            simp [toList_zip, T.toList, before, after]
          · split at h
            · split at h
              · contradiction
              · simp only [Option.some.injEq] at h; subst h
                simp [toList_zip, T.toList, before, after]
            · simp only [Option.some.injEq] at h; subst h
              simp [toList_zip, T.toList, before, after]
      · split at h
        · split at h
          · rw [ih _ h]; simp [T.toList, before, after]
          · simp only [Option.some.injEq] at h; subst h
            simp [toList_zip, T.toList, before, after]
        · split at h
          · split at h
            · contradiction
            · simp only [Option.some.injEq] at h; subst h
              simp [toList_zip, T.toList, before, after]
          · simp only [Option.some.injEq] at h; subst h
            simp [toList_zip, T.toList, before, after]

theorem toList_delFinish (c : Color) (n : T α) (path : List (Frame α)) (t : T α)
    (h : delFinish c n path = some t) : t.toList = before path ++ n.toList ++ after path := by
  unfold delFinish at h
  split at h
  · simp only [Option.some.injEq] at h; subst h; simp [toList_zip]
  · split at h
    · simp only [Option.some.injEq] at h; subst h; simp [toList_zip]
    · exact toList_fixDel n path t h

theorem minSplit_spec (t : T α) (acc : List (Frame α)) (c : Color) (v : α) (r : T α) (fs : List (Frame α))
    (h : minSplit t acc = some (c, v, r, fs)) : ∃ gs, fs = gs ++ acc ∧ before gs = [] ∧
      t.toList = v :: (r.toList ++ after gs) ∧ zip (.node c .nil v r) gs = t := by
  fun_induction minSplit t acc with
  | case1 => contradiction
  | case2 acc c' v' r' =>
    simp only [Option.some.injEq, Prod.mk.injEq] at h
    obtain ⟨rfl, rfl, rfl, rfl⟩ := h
    exact ⟨[], by simp [before, after, T.toList, zip]⟩
  | case3 c' lc ll lv lr v' r' acc ih =>
    obtain ⟨gs, e1, e2, e3, e4⟩ := ih h
    refine ⟨gs ++ [.L c' v' r'], by simp [e1], by simp [before_append, e2, before], ?_, ?_⟩
    · rw [T.toList, e3]; simp [after_append, after]
    · have : ∀ (n : T α) (p q : List (Frame α)), zip n (p ++ q) = zip (zip n p) q := by
        intro n p q
        induction p generalizing n with
        | nil => rfl
        | cons f p ih => cases f <;> simp [zip, ih]
      rw [this, e4]; rfl

theorem minSplit_isSome (t : T α) (acc : List (Frame α)) (h : t ≠ .nil) : minSplit t acc ≠ none := by
  fun_induction minSplit t acc with
  | case1 => contradiction
  | case2 => simp
  | case3 => rename_i ih; exact ih (by simp)

theorem locate_spec (t : T α) (i : Nat) (path : List (Frame α)) (c : Color) (l : T α) (v : α) (r : T α)
    (p' : List (Frame α)) (h : locate t i path = some (c, l, v, r, p')) :
    zip (.node c l v r) p' = zip t path ∧
    before p' ++ l.toList = before path ++ t.toList.take i ∧
    (before p' ++ l.toList).length = (before path).length + i ∧
    v :: (r.toList ++ after p') = t.toList.drop i ++ after path ∧ i < t.toList.length := by
  induction t generalizing i path with
  | nil => contradiction
  | node c' l' v' r' ihl ihr =>
    simp only [locate] at h
    split at h
    · rename_i hi
      simp only [T.size] at hi
      obtain ⟨e1, e2, e3, e4, e5⟩ := ihl i _ h
      refine ⟨e1, ?_, ?_, ?_, ?_⟩
      · rw [e2]; simp [before, T.toList, List.take_append, Nat.sub_eq_zero_of_le (Nat.le_of_lt hi)]
      · simpa [before] using e3
      · rw [e4]; simp [after, T.toList, List.drop_append, Nat.sub_eq_zero_of_le (Nat.le_of_lt hi)]
      · simp [T.toList]; omega
    · split at h
      · rename_i hi
        simp only [Option.some.injEq, Prod.mk.injEq] at h
        obtain ⟨rfl, rfl, rfl, rfl, rfl⟩ := h
        simp only [T.size] at hi
        subst hi
        simp [T.toList]
      · rename_i hi hi'
        simp only [T.size] at hi hi' h
        obtain ⟨e1, e2, e3, e4, e5⟩ := ihr _ _ h
        have hk : ∃ k, i = l'.toList.length + 1 + k := ⟨i - l'.toList.length - 1, by omega⟩
        obtain ⟨k, hk⟩ := hk
        have hk' : i - l'.toList.length - 1 = k := by omega
        rw [hk'] at e2 e3 e4 e5
        have hk2 : i - l'.toList.length = k + 1 := by omega
        refine ⟨e1, ?_, ?_, ?_, ?_⟩
        · rw [e2]; simp [before, T.toList, List.take_append, hk2]
          rw [List.take_of_length_le (by omega)]
        · rw [e3]; simp [before]; omega
        · rw [e4]; simp [after, T.toList, List.drop_append, hk2]
          omega
        · simp [T.toList]; omega

theorem locate_isSome (t : T α) (i : Nat) (path : List (Frame α)) (h : i < t.toList.length) :
    ∃ c l v r p', locate t i path = some (c, l, v, r, p') := by
  induction t generalizing i path with
  | nil => simp [T.toList] at h
  | node c' l' v' r' ihl ihr =>
    simp only [locate]
    split
    · exact ihl _ _ (by assumption)
    · split
      · exact ⟨_, _, _, _, _, rfl⟩
      · refine ihr _ _ ?_
        simp [T.toList] at h; simp only [T.size] at *; omega

/-- removal takes exactly the node at position `i` out of the sequence -/
theorem toList_rbRemove (t : T α) (i : Nat) (t' : T α) (h : rbRemove t i = some t') :
    t'.toList = t.toList.eraseIdx i := by
  unfold rbRemove at h
  split at h
  · contradiction
  · rename_i c l v r path hl
    obtain ⟨e1, e2, e3, e4, e5⟩ := locate_spec _ _ _ _ _ _ _ _ hl
    simp only [before, after, List.nil_append, List.append_nil] at e2 e4
    have hd : r.toList ++ after path = t.toList.drop (i + 1) := by
      have := congrArg List.tail e4
      simpa [List.tail_drop] using this
    have goal : t'.toList = before path ++ (l.toList ++ r.toList) ++ after path → t'.toList = t.toList.eraseIdx i := by
      intro hg
      rw [hg, List.eraseIdx_eq_take_drop_succ, ← hd, ← e2]; simp
    apply goal
    split at h
    · simpa [T.toList] using toList_delFinish _ _ _ _ h
    · simpa [T.toList] using toList_delFinish _ _ _ _ h
    · split at h
      · contradiction
      · rename_i xc xv xr fs hm
        obtain ⟨gs, g1, g2, g3, g4⟩ := minSplit_spec _ _ _ _ _ _ hm
        have := toList_delFinish _ _ _ _ h
        rw [List.append_nil] at g1; subst g1
        rw [this]
        simp [before_append, after_append, before, after, g2, g3]

/-! ## balance -/

/-- red-black subtree of black height `h` -/
def isRB : T α → Nat → Prop
  | .nil, h => h = 0
  | .node .red l _ r, h => l.color = .black ∧ r.color = .black ∧ isRB l h ∧ isRB r h
  | .node .black l _ r, h => ∃ k, h = k + 1 ∧ isRB l k ∧ isRB r k

/-- a whole tree: black root -/
def Good (t : T α) : Prop := t.color = .black ∧ ∃ h, isRB t h

def headBlack : List (Frame α) → Prop
  | [] => False
  | f :: _ => f.color = .black

/-- the context of a hole that needs black height `h` -/
def PathOK : List (Frame α) → Nat → Prop
  | [], _ => True
  | .L c _ r :: up, h => isRB r h ∧ (c = .red → r.color = .black ∧ headBlack up) ∧
      PathOK up (if c = .black then h + 1 else h)
  | .R c l _ :: up, h => isRB l h ∧ (c = .red → l.color = .black ∧ headBlack up) ∧
      PathOK up (if c = .black then h + 1 else h)

theorem isRB_blacken (t : T α) (h : Nat) (hr : isRB t h) : ∃ k, isRB t.blacken k := by
  match t with
  | .nil => exact ⟨h, hr⟩
  | .node .black l v r => exact ⟨h, hr⟩
  | .node .red l v r =>
    simp only [isRB] at hr
    exact ⟨h + 1, h, rfl, hr.2.2.1, hr.2.2.2⟩

theorem color_blacken (t : T α) : t.blacken.color = .black := by cases t <;> rfl

theorem good_blacken (t : T α) (h : Nat) (hr : isRB t h) : Good t.blacken :=
  ⟨color_blacken t, isRB_blacken t h hr⟩

theorem color_cases (c : Color) : c = .red ∨ c = .black := by cases c <;> simp

theorem zip_root (n : T α) (path : List (Frame α)) (h : Nat) (hp : PathOK path h)
    (hc : path = [] → n.color = .black) : (zip n path).color = .black := by
  induction path generalizing n h with
  | nil => exact hc rfl
  | cons f up ih =>
    cases f with
    | L c v r =>
      simp only [PathOK] at hp
      refine ih _ _ hp.2.2 ?_
      intro hu; subst hu
      rcases color_cases c with rfl | rfl
      · have := (hp.2.1 rfl).2; simp [headBlack] at this
      · rfl
    | R c l v =>
      simp only [PathOK] at hp
      refine ih _ _ hp.2.2 ?_
      intro hu; subst hu
      rcases color_cases c with rfl | rfl
      · have := (hp.2.1 rfl).2; simp [headBlack] at this
      · rfl

theorem zip_rb (n : T α) (path : List (Frame α)) (h : Nat) (hn : isRB n h)
    (hc : n.color = .red → path = [] ∨ headBlack path) (hp : PathOK path h) :
    ∃ k, isRB (zip n path) k := by
  induction path generalizing n h with
  | nil => exact ⟨h, hn⟩
  | cons f up ih =>
    cases f with
    | L c v r =>
      simp only [PathOK] at hp
      obtain ⟨h1, h2, h3⟩ := hp
      simp only [zip]
      cases c with
      | black => exact ih (.node .black n v r) (h + 1) ⟨h, rfl, hn, h1⟩ (by simp [T.color]) (by simpa using h3)
      | red =>
        obtain ⟨h4, h5⟩ := h2 rfl
        have hnc : n.color = .black := by
          rcases color_cases n.color with e | e
          · have := hc e; simp [headBlack, Frame.color] at this
          · exact e
        exact ih (.node .red n v r) h ⟨hnc, h4, hn, h1⟩ (fun _ => .inr h5) (by simpa using h3)
    | R c l v =>
      simp only [PathOK] at hp
      obtain ⟨h1, h2, h3⟩ := hp
      simp only [zip]
      cases c with
      | black => exact ih (.node .black l v n) (h + 1) ⟨h, rfl, h1, hn⟩ (by simp [T.color]) (by simpa using h3)
      | red =>
        obtain ⟨h4, h5⟩ := h2 rfl
        have hnc : n.color = .black := by
          rcases color_cases n.color with e | e
          · have := hc e; simp [headBlack, Frame.color] at this
          · exact e
        exact ih (.node .red l v n) h ⟨h4, hnc, h1, hn⟩ (fun _ => .inr h5) (by simpa using h3)

theorem zip_good (n : T α) (path : List (Frame α)) (h : Nat) (hn : isRB n h) (hb : n.color = .black)
    (hp : PathOK path h) : Good (zip n path) :=
  ⟨zip_root n path h hp (fun _ => hb), zip_rb n path h hn (by simp [hb]) hp⟩

theorem zip_good' (n : T α) (path : List (Frame α)) (h : Nat) (hn : isRB n h)
    (hc : n.color = .red → path = [] ∨ headBlack path) (hp : PathOK path h) : Good (zip n path).blacken := by
  obtain ⟨k, hk⟩ := zip_rb n path h hn hc hp
  exact good_blacken _ _ hk

theorem not_red {c : Color} (h : ¬ c = .red) : c = .black := by cases c <;> simp_all
theorem not_black {c : Color} (h : ¬ c = .black) : c = .red := by cases c <;> simp_all

theorem isRB_red_blacken (t : T α) (h : Nat) (hr : isRB t h) (hc : t.color = .red) :
    isRB t.blacken (h + 1) := by
  match t with
  | .nil => simp [T.color] at hc
  | .node .black l v r => simp [T.color] at hc
  | .node .red l v r => simp only [isRB] at hr; exact ⟨h, rfl, hr.2.2.1, hr.2.2.2⟩

/-- sibling subtree of a frame -/
def Frame.sib : Frame α → T α
  | .L _ _ r => r
  | .R _ l _ => l

theorem pathOK_two (f g : Frame α) (up : List (Frame α)) (h : Nat) (hp : PathOK (f :: g :: up) h)
    (hf : ¬ f.color = .black) : f.sib.color = .black ∧ isRB f.sib h ∧ isRB g.sib h ∧ PathOK up (h + 1) := by
  have hf := not_black hf
  cases f <;> cases g <;>
    simp only [Frame.color] at hf <;> subst hf <;>
    simp only [PathOK, headBlack, Frame.color, Frame.sib, forall_const, reduceCtorEq, if_false] at hp ⊢ <;>
    obtain ⟨h1, ⟨h2, rfl⟩, h3, h4, h5⟩ := hp <;>
    exact ⟨h2, h1, h3, by simpa using h5⟩

/-- a red node with black children, and one allowed violation with its parent -/
theorem fixup_good (n : T α) (path : List (Frame α)) (h : Nat) (hn : isRB n h) (hr : n.color = .red)
    (hp : PathOK path h) : Good (fixup n path).blacken := by
  fun_induction fixup n path generalizing h with
  | case1 n => exact good_blacken n h hn
  | case2 n f =>
    refine zip_good' n [f] h hn (fun _ => .inr ?_) hp
    cases f with
    | L c v r =>
      simp only [PathOK] at hp
      rcases color_cases c with rfl | rfl
      · have := (hp.2.1 rfl).2; simp [headBlack] at this
      · rfl
    | R c v r =>
      simp only [PathOK] at hp
      rcases color_cases c with rfl | rfl
      · have := (hp.2.1 rfl).2; simp [headBlack] at this
      · rfl
  | case3 n f g up hb => exact zip_good' n _ h hn (fun _ => .inr hb) hp
  | case4 n up gc gv u hu c pv pr hb ih =>
    obtain ⟨h1, h2, h3, h4⟩ := pathOK_two _ _ _ _ hp hb
    exact ih (h + 1) ⟨rfl, color_blacken u, ⟨h, rfl, hn, h2⟩, isRB_red_blacken u h h3 hu⟩ rfl h4
  | case5 n up gc gv u hu c pl pv hb ih =>
    obtain ⟨h1, h2, h3, h4⟩ := pathOK_two _ _ _ _ hp hb
    exact ih (h + 1) ⟨rfl, color_blacken u, ⟨h, rfl, h2, hn⟩, isRB_red_blacken u h h3 hu⟩ rfl h4
  | case6 up gc gv u hu pc pl pv c nl nv nr hb =>
    obtain ⟨h1, h2, h3, h4⟩ := pathOK_two _ _ _ _ hp hb
    simp only [T.color] at hr; subst hr
    have hb := not_black hb; simp only [Frame.color] at hb; subst hb
    simp only [isRB] at hn
    exact zip_good' _ _ (h + 1) ⟨h, rfl, ⟨h1, hn.1, h2, hn.2.2.1⟩, ⟨hn.2.1, not_red hu, hn.2.2.2, h3⟩⟩
      (by simp [T.color]) h4
  | case7 up gc gv u hu c pv pr n hb =>
    obtain ⟨h1, h2, h3, h4⟩ := pathOK_two _ _ _ _ hp hb
    exact zip_good' _ _ (h + 1) ⟨h, rfl, hn, ⟨h1, not_red hu, h2, h3⟩⟩ (by simp [T.color]) h4
  | case8 up gc gv u hu f n x1 x2 hb =>
    cases f with
    | L c v r => exact absurd rfl (x2 c v r)
    | R c l v =>
      cases n with
      | nil => simp [T.color] at hr
      | node => exact absurd rfl (x1 _ _ _ _ _ _ _ rfl)
  | case9 n up gc u gv hu c pv pr hb ih =>
    obtain ⟨h1, h2, h3, h4⟩ := pathOK_two _ _ _ _ hp hb
    exact ih (h + 1) ⟨color_blacken u, rfl, isRB_red_blacken u h h3 hu, ⟨h, rfl, hn, h2⟩⟩ rfl h4
  | case10 n up gc u gv hu c pl pv hb ih =>
    obtain ⟨h1, h2, h3, h4⟩ := pathOK_two _ _ _ _ hp hb
    exact ih (h + 1) ⟨color_blacken u, rfl, isRB_red_blacken u h h3 hu, ⟨h, rfl, h2, hn⟩⟩ rfl h4
  | case11 up gc u gv hu pc pv pr c nl nv nr hb =>
    obtain ⟨h1, h2, h3, h4⟩ := pathOK_two _ _ _ _ hp hb
    simp only [T.color] at hr; subst hr
    have hb := not_black hb; simp only [Frame.color] at hb; subst hb
    simp only [isRB] at hn
    exact zip_good' _ _ (h + 1) ⟨h, rfl, ⟨not_red hu, hn.1, h3, hn.2.2.1⟩, ⟨hn.2.1, h1, hn.2.2.2, h2⟩⟩
      (by simp [T.color]) h4
  | case12 up gc u gv hu c pl pv n hb =>
    obtain ⟨h1, h2, h3, h4⟩ := pathOK_two _ _ _ _ hp hb
    exact zip_good' _ _ (h + 1) ⟨h, rfl, ⟨not_red hu, h1, h3, h2⟩, hn⟩ (by simp [T.color]) h4
  | case13 up gc u gv hu f n x1 x2 hb =>
    cases f with
    | R c l v => exact absurd rfl (x2 c l v)
    | L c v r =>
      cases n with
      | nil => simp [T.color] at hr
      | node => exact absurd rfl (x1 _ _ _ _ _ _ _ rfl)

/-- the chain of parents of a node of a good tree -/
theorem locate_path (t : T α) (i : Nat) (path : List (Frame α)) (h : Nat) (ht : isRB t h)
    (hc : t.color = .red → headBlack path) (hp : PathOK path h)
    (c : Color) (l : T α) (v : α) (r : T α) (p' : List (Frame α))
    (hl : locate t i path = some (c, l, v, r, p')) :
    ∃ k, isRB (.node c l v r) k ∧ PathOK p' k ∧ (c = .red → headBlack p') := by
  induction t generalizing i path h with
  | nil => contradiction
  | node c' l' v' r' ihl ihr =>
    simp only [locate] at hl
    split at hl
    · cases c' with
      | red =>
        simp only [isRB] at ht
        refine ihl i _ h ht.2.2.1 (by simp [ht.1]) ?_ hl
        exact ⟨ht.2.2.2, fun _ => ⟨ht.2.1, hc rfl⟩, by simpa using hp⟩
      | black =>
        simp only [isRB] at ht
        obtain ⟨k, rfl, h1, h2⟩ := ht
        refine ihl i (.L .black v' r' :: path) k h1 (fun _ => rfl) ?_ hl
        exact ⟨h2, by simp, by simpa using hp⟩
    · split at hl
      · simp only [Option.some.injEq, Prod.mk.injEq] at hl
        obtain ⟨rfl, rfl, rfl, rfl, rfl⟩ := hl
        exact ⟨h, ht, hp, hc⟩
      · cases c' with
        | red =>
          simp only [isRB] at ht
          refine ihr _ _ h ht.2.2.2 (by simp [ht.2.1]) ?_ hl
          exact ⟨ht.2.2.1, fun _ => ⟨ht.1, hc rfl⟩, by simpa using hp⟩
        | black =>
          simp only [isRB] at ht
          obtain ⟨k, rfl, h1, h2⟩ := ht
          refine ihr _ (.R .black l' v' :: path) k h2 (fun _ => rfl) ?_ hl
          exact ⟨h1, by simp, by simpa using hp⟩

/-- the left spine of a right subtree -/
theorem minSplit_path (t : T α) (acc : List (Frame α)) (h : Nat) (ht : isRB t h) (hp : PathOK acc h)
    (hc : t.color = .red → headBlack acc) (c : Color) (v : α) (r : T α) (fs : List (Frame α))
    (hm : minSplit t acc = some (c, v, r, fs)) :
    ∃ k, isRB (.node c .nil v r) k ∧ PathOK fs k ∧ (c = .red → headBlack fs) := by
  fun_induction minSplit t acc generalizing h with
  | case1 => contradiction
  | case2 acc c' v' r' =>
    simp only [Option.some.injEq, Prod.mk.injEq] at hm
    obtain ⟨rfl, rfl, rfl, rfl⟩ := hm
    exact ⟨h, ht, hp, hc⟩
  | case3 c' lc ll lv lr v' r' acc ih =>
    cases c' with
    | red =>
      rw [isRB] at ht
      refine ih h ht.2.2.1 ⟨ht.2.2.2, fun _ => ⟨ht.2.1, hc rfl⟩, by simpa using hp⟩ ?_ hm
      intro hh; rw [ht.1] at hh; contradiction
    | black =>
      rw [isRB] at ht
      obtain ⟨k, rfl, h1, h2⟩ := ht
      exact ih k h1 ⟨h2, by simp, by simpa using hp⟩ (fun _ => rfl) hm

/-- removal of one black node below `path` -/
theorem fixDel_good (n : T α) (path : List (Frame α)) (h : Nat) (hn : isRB n h) (hb : n.color = .black)
    (hp : PathOK path (h + 1)) : ∃ t, fixDel n path = some t ∧ Good t := by
  induction path generalizing n h with
  | nil => exact ⟨n.blacken, rfl, good_blacken n h hn⟩
  | cons f up ih =>
    cases f with
    | L pc pv s =>
      simp only [PathOK] at hp
      obtain ⟨hs, hpc, hup⟩ := hp
      match s, hs, hpc with
      | .nil, hs, _ => simp [isRB] at hs
      | .node .red .nil sv sr, hs, _ => simp [isRB] at hs
      | .node .red (.node .red xl xv xr) sv sr, hs, _ => simp [isRB, T.color] at hs
      | .node .red (.node .black xl xv xr) sv sr, hs, hpc =>
        simp only [isRB, T.color, true_and, Nat.add_right_cancel_iff] at hs
        obtain ⟨hsr, ⟨k, rfl, h1, h2⟩, h3⟩ := hs
        have hpb : pc = .black := by
          rcases color_cases pc with e | e
          · have := (hpc e).1; simp [T.color] at this
          · exact e
        subst hpb
        simp only [if_true] at hup
        have hup' : PathOK (.L .black sv sr :: up) (h + 1) := ⟨h3, by simp, by simpa using hup⟩
        simp only [fixDel]
        split
        · rename_i hc
          refine ⟨_, rfl, zip_good _ _ (h + 1) ?_ rfl hup'⟩
          exact ⟨h, rfl, hn, hc.1, hc.2, h1, h2⟩
        · rename_i hc
          split
          · rename_i hc2
            have hxl : xl.color = .red := not_black (fun e => hc ⟨e, hc2⟩)
            match xl, h1, hxl with
            | .node .red yl yv yr, h1, _ =>
              simp only [isRB] at h1
              refine ⟨_, rfl, zip_good' _ _ (h + 1) ?_ (fun _ => .inr rfl) hup'⟩
              exact ⟨rfl, rfl, ⟨h, rfl, hn, h1.2.2.1⟩, ⟨h, rfl, h1.2.2.2, h2⟩⟩
          · rename_i hc2
            refine ⟨_, rfl, zip_good' _ _ (h + 1) ?_ (fun _ => .inr rfl) hup'⟩
            exact ⟨rfl, color_blacken _, ⟨h, rfl, hn, h1⟩, isRB_red_blacken _ _ h2 (not_black hc2)⟩
      | .node .black xl xv xr, hs, hpc =>
        simp only [isRB, Nat.add_right_cancel_iff] at hs
        obtain ⟨k, rfl, h1, h2⟩ := hs
        simp only [fixDel]
        split
        · rename_i hc
          split
          · rename_i hpb
            subst hpb
            refine ih _ (h + 1) ?_ rfl (by simpa using hup)
            exact ⟨h, rfl, hn, hc.1, hc.2, h1, h2⟩
          · rename_i hpb
            have := not_black hpb; subst this
            refine ⟨_, rfl, zip_good _ _ (h + 1) ?_ rfl (by simpa using hup)⟩
            exact ⟨h, rfl, hn, hc.1, hc.2, h1, h2⟩
        · rename_i hc
          have fin : ∀ (a b : T α) (v : α), isRB a (h + 1) → isRB b (h + 1) → a.color = .black → b.color = .black →
              Good (zip (.node pc a v b) up).blacken := by
            intro a b v ha hb' hca hcb
            cases pc with
            | red => exact zip_good' _ _ (h + 1) ⟨hca, hcb, ha, hb'⟩ (fun _ => .inr (hpc rfl).2) (by simpa using hup)
            | black => exact zip_good' _ _ (h + 2) ⟨h + 1, rfl, ha, hb'⟩ (by simp [T.color]) (by simpa using hup)
          split
          · rename_i hc2
            have hxl : xl.color = .red := not_black (fun e => hc ⟨e, hc2⟩)
            match xl, h1, hxl with
            | .node .red yl yv yr, h1, _ =>
              simp only [isRB] at h1
              exact ⟨_, rfl, fin _ _ _ ⟨h, rfl, hn, h1.2.2.1⟩ ⟨h, rfl, h1.2.2.2, h2⟩ rfl rfl⟩
          · rename_i hc2
            exact ⟨_, rfl, fin _ _ _ ⟨h, rfl, hn, h1⟩ (isRB_red_blacken _ _ h2 (not_black hc2)) rfl (color_blacken _)⟩
    | R pc s pv =>
      simp only [PathOK] at hp
      obtain ⟨hs, hpc, hup⟩ := hp
      match s, hs, hpc with
      | .nil, hs, _ => simp [isRB] at hs
      | .node .red sl sv .nil, hs, _ => simp [isRB] at hs
      | .node .red sl sv (.node .red xl xv xr), hs, _ => simp [isRB, T.color] at hs
      | .node .red sl sv (.node .black xl xv xr), hs, hpc =>
        simp only [isRB, T.color, true_and, Nat.add_right_cancel_iff] at hs
        obtain ⟨hsl, h3, ⟨k, rfl, h1, h2⟩⟩ := hs
        have hpb : pc = .black := by
          rcases color_cases pc with e | e
          · have := (hpc e).1; simp [T.color] at this
          · exact e
        subst hpb
        simp only [if_true] at hup
        have hup' : PathOK (.R .black sl sv :: up) (h + 1) := ⟨h3, by simp, by simpa using hup⟩
        simp only [fixDel]
        split
        · rename_i hc
          refine ⟨_, rfl, zip_good _ _ (h + 1) ?_ rfl hup'⟩
          exact ⟨h, rfl, ⟨hc.1, hc.2, h1, h2⟩, hn⟩
        · rename_i hc
          split
          · rename_i hc2
            have hxr : xr.color = .red := not_black (fun e => hc ⟨hc2, e⟩)
            match xr, h2, hxr with
            | .node .red yl yv yr, h2, _ =>
              simp only [isRB] at h2
              refine ⟨_, rfl, zip_good' _ _ (h + 1) ?_ (fun _ => .inr rfl) hup'⟩
              exact ⟨rfl, rfl, ⟨h, rfl, h1, h2.2.2.1⟩, ⟨h, rfl, h2.2.2.2, hn⟩⟩
          · rename_i hc2
            refine ⟨_, rfl, zip_good' _ _ (h + 1) ?_ (fun _ => .inr rfl) hup'⟩
            exact ⟨color_blacken _, rfl, isRB_red_blacken _ _ h1 (not_black hc2), ⟨h, rfl, h2, hn⟩⟩
      | .node .black xl xv xr, hs, hpc =>
        simp only [isRB, Nat.add_right_cancel_iff] at hs
        obtain ⟨k, rfl, h1, h2⟩ := hs
        simp only [fixDel]
        split
        · rename_i hc
          split
          · rename_i hpb
            subst hpb
            refine ih _ (h + 1) ?_ rfl (by simpa using hup)
            exact ⟨h, rfl, ⟨hc.1, hc.2, h1, h2⟩, hn⟩
          · rename_i hpb
            have := not_black hpb; subst this
            refine ⟨_, rfl, zip_good _ _ (h + 1) ?_ rfl (by simpa using hup)⟩
            exact ⟨h, rfl, ⟨hc.1, hc.2, h1, h2⟩, hn⟩
        · rename_i hc
          have fin : ∀ (a b : T α) (v : α), isRB a (h + 1) → isRB b (h + 1) → a.color = .black → b.color = .black →
              Good (zip (.node pc a v b) up).blacken := by
            intro a b v ha hb' hca hcb
            cases pc with
            | red => exact zip_good' _ _ (h + 1) ⟨hca, hcb, ha, hb'⟩ (fun _ => .inr (hpc rfl).2) (by simpa using hup)
            | black => exact zip_good' _ _ (h + 2) ⟨h + 1, rfl, ha, hb'⟩ (by simp [T.color]) (by simpa using hup)
          split
          · rename_i hc2
            have hxr : xr.color = .red := not_black (fun e => hc ⟨hc2, e⟩)
            match xr, h2, hxr with
            | .node .red yl yv yr, h2, _ =>
              simp only [isRB] at h2
              exact ⟨_, rfl, fin _ _ _ ⟨h, rfl, h1, h2.2.2.1⟩ ⟨h, rfl, h2.2.2.2, hn⟩ rfl rfl⟩
          · rename_i hc2
            exact ⟨_, rfl, fin _ _ _ (isRB_red_blacken _ _ h1 (not_black hc2)) ⟨h, rfl, h2, hn⟩ (color_blacken _) rfl⟩

theorem delFinish_good (c : Color) (n : T α) (path : List (Frame α)) (h : Nat) (hn : isRB n h)
    (hred : c = .red → PathOK path h ∧ n.color = .black)
    (hred' : c = .red → path ≠ [])
    (hblk : c = .black → PathOK path (h + 1)) : ∃ t, delFinish c n path = some t ∧ Good t := by
  unfold delFinish
  cases c with
  | red =>
    simp only [if_true]
    exact ⟨_, rfl, zip_good _ _ h hn (hred rfl).2 (hred rfl).1⟩
  | black =>
    simp only [reduceCtorEq, if_false]
    split
    · rename_i hc
      exact ⟨_, rfl, zip_good _ _ (h + 1) (isRB_red_blacken n h hn hc) (color_blacken n) (hblk rfl)⟩
    · rename_i hc
      exact fixDel_good n path h hn (not_red hc) (hblk rfl)

/-- the frames between a subtree and its leftmost node, put on top of the parents of the subtree -/
theorem minSplit_acc (t : T α) (acc acc' : List (Frame α)) :
    minSplit t (acc ++ acc') = (minSplit t acc).map fun (c, v, r, fs) => (c, v, r, fs ++ acc') := by
  fun_induction minSplit t acc with
  | case1 => simp [minSplit]
  | case2 => simp [minSplit]
  | case3 c' lc ll lv lr v' r' acc ih => rw [minSplit, ← List.cons_append, ih]

/-- removing any existing node succeeds and keeps the tree balanced -/
theorem rbRemove_good (t : T α) (i : Nat) (ht : Good t) (hi : i < t.toList.length) :
    ∃ t', rbRemove t i = some t' ∧ Good t' := by
  obtain ⟨hc, h, hrb⟩ := ht
  obtain ⟨c, l, v, r, path, hl⟩ := locate_isSome t i [] hi
  obtain ⟨k, h1, h2, h3⟩ := locate_path t i [] h hrb (by simp [hc]) trivial c l v r path hl
  unfold rbRemove
  rw [hl]
  match l, r, hl, h1 with
  | .nil, r, hl, h1 =>
    simp only
    cases c with
    | red =>
      simp only [isRB] at h1
      exact delFinish_good _ _ _ k h1.2.2.2 (fun _ => ⟨h2, h1.2.1⟩) (by intro _ e; subst e; simp [headBlack] at h3)
        (by simp)
    | black =>
      simp only [isRB] at h1
      obtain ⟨j, rfl, rfl, h5⟩ := h1
      exact delFinish_good _ _ _ 0 h5 (by simp) (by simp) (fun _ => h2)
  | .node lc ll lv lr, .nil, hl, h1 =>
    simp only
    cases c with
    | red =>
      rw [isRB] at h1
      exact delFinish_good _ _ _ k h1.2.2.1 (fun _ => ⟨h2, h1.1⟩) (by intro _ e; subst e; simp [headBlack] at h3)
        (by simp)
    | black =>
      rw [isRB] at h1
      obtain ⟨j, rfl, h4, h5⟩ := h1
      exact delFinish_good _ _ _ j h4 (by simp) (by simp) (fun _ => h2)
  | .node lc ll lv lr, .node rc rl rv rr, hl, h1 =>
    simp only
    cases hm : minSplit (.node rc rl rv rr) [] with
    | none => exact absurd hm (minSplit_isSome _ _ (by simp))
    | some q =>
      obtain ⟨xc, xv, xr, fs⟩ := q
      simp only
      have hm' := minSplit_acc (.node rc rl rv rr) [] (.R c (.node lc ll lv lr) xv :: path)
      rw [hm, List.nil_append] at hm'
      simp only [Option.map_some] at hm'
      have hpath : ∃ k', isRB (.node xc .nil xv xr) k' ∧ PathOK (fs ++ .R c (.node lc ll lv lr) xv :: path) k' ∧
          (xc = .red → headBlack (fs ++ .R c (.node lc ll lv lr) xv :: path)) := by
        cases c with
        | red =>
          rw [isRB] at h1
          refine minSplit_path _ (.R .red (.node lc ll lv lr) xv :: path) k h1.2.2.2 ⟨h1.2.2.1, fun _ => ⟨h1.1, h3 rfl⟩, by simpa using h2⟩ ?_ _ _ _ _ hm'
          intro e; rw [h1.2.1] at e; contradiction
        | black =>
          rw [isRB] at h1
          obtain ⟨j, rfl, h4, h5⟩ := h1
          exact minSplit_path _ (.R .black (.node lc ll lv lr) xv :: path) j h5 ⟨h4, by simp, by simpa using h2⟩ (fun _ => rfl) _ _ _ _ hm'
      obtain ⟨k', g1, g2, g3⟩ := hpath
      cases xc with
      | red =>
        simp only [isRB] at g1
        exact delFinish_good _ _ _ k' g1.2.2.2 (fun _ => ⟨g2, g1.2.1⟩) (by simp) (by simp)
      | black =>
        simp only [isRB] at g1
        obtain ⟨j, rfl, rfl, g5⟩ := g1
        exact delFinish_good _ _ _ 0 g5 (by simp) (by simp) (fun _ => g2)

/-- attaching a new node where the child pointer is NULL: it is put right before (`prel > 0`) or right after
the node, and the tree stays balanced -/
theorem rbSet_spec (t : T α) (i : Nat) (prel : Int) (x : α) (ht : Good t) (c : Color) (l : T α) (v : α) (r : T α)
    (path : List (Frame α)) (hl : locate t i [] = some (c, l, v, r, path))
    (hnil : if prel > 0 then l = .nil else r = .nil) :
    ∃ t', rbSet t (some i) prel x = some t' ∧ Good t' ∧
      t'.toList = if prel > 0 then t.toList.take i ++ x :: t.toList.drop i
        else t.toList.take (i + 1) ++ x :: t.toList.drop (i + 1) := by
  obtain ⟨hc, h, hrb⟩ := ht
  obtain ⟨k, h1, h2, h3⟩ := locate_path t i [] h hrb (by simp [hc]) trivial c l v r path hl
  obtain ⟨e1, e2, e3, e4, e5⟩ := locate_spec _ _ _ _ _ _ _ _ hl
  simp only [before, after, List.nil_append, List.append_nil] at e2 e4
  have hd : r.toList ++ after path = t.toList.drop (i + 1) := by
    have := congrArg List.tail e4
    simpa [List.tail_drop] using this
  have hv : t.toList.take (i + 1) = t.toList.take i ++ [v] := by
    have : t.toList[i]? = some v := by
      have := congrArg List.head? e4
      simpa [List.head?_drop] using this.symm
    rw [List.take_add_one, this]; rfl
  unfold rbSet
  simp only [hl]
  have nrb : isRB (.node .red .nil x .nil) 0 := ⟨rfl, rfl, rfl, rfl⟩
  split at hnil
  · subst hnil
    rename_i hp
    rw [if_pos hp]
    have hpath : PathOK (.L c v r :: path) 0 := by
      cases c with
      | red => simp only [isRB] at h1; obtain ⟨_, a2, rfl, a4⟩ := h1
               exact ⟨a4, fun _ => ⟨a2, h3 rfl⟩, by simpa using h2⟩
      | black => simp only [isRB] at h1; obtain ⟨j, rfl, rfl, a4⟩ := h1
                 exact ⟨a4, by simp, by simpa using h2⟩
    refine ⟨_, rfl, fixup_good _ _ 0 nrb rfl hpath, ?_⟩
    simp only [hp, if_true]
    rw [toList_blacken, toList_fixup]
    simp only [before, after, T.toList, List.append_nil, List.nil_append] at e2 ⊢
    rw [e2, ← e4]; simp
  · subst hnil
    rename_i hp
    rw [if_neg hp]
    have hpath : PathOK (.R c l v :: path) 0 := by
      cases c with
      | red => simp only [isRB] at h1; obtain ⟨a1, _, a3, rfl⟩ := h1
               exact ⟨a3, fun _ => ⟨a1, h3 rfl⟩, by simpa using h2⟩
      | black => simp only [isRB] at h1; obtain ⟨j, rfl, a3, rfl⟩ := h1
                 exact ⟨a3, by simp, by simpa using h2⟩
    refine ⟨_, rfl, fixup_good _ _ 0 nrb rfl hpath, ?_⟩
    simp only [hp, if_false]
    rw [toList_blacken, toList_fixup, hv, ← hd, ← e2]
    simp only [before, after, T.toList, List.append_nil, List.nil_append]
    simp

end Verif.Index
