import Verif.Compile.ScanSpec
/-!
# Scans: expression code within the larger machine
-/
set_option linter.unusedSimpArgs false
set_option linter.unusedVariables false
namespace Verif.Compile

variable {W : Type} {T : Tables W}

theorem XExec.trans {code : List XInstr} {a b c : XVM W} (h : XExec T code a b) (h' : XExec T code b c) : XExec T code a c := by
  induction h with
  | refl => exact h'
  | step hi hs _ ih => exact .step hi hs (ih h')

theorem XExec.one {code : List XInstr} {a b : XVM W} {i : XInstr} (h : code[a.vm.pc]? = some i) (hs : stepX T i a = .ok b) :
    XExec T code a b := .step h hs (.refl _)

theorem XExec.fails {code : List XInstr} {a b : XVM W} {e : Stop} (h : XExec T code a b) (h' : XFails T code b e) : XFails T code a e := by
  obtain ⟨s, i, he, hi, hs⟩ := h'
  exact ⟨s, i, h.trans he, hi, hs⟩

theorem xfails_now {code : List XInstr} {a : XVM W} {i : XInstr} {e : Stop} (h : code[a.vm.pc]? = some i)
    (hs : stepX T i a = .error e) : XFails T code a e := ⟨a, i, .refl _, h, hs⟩

/-- the machine does not look at `row` -/
theorem stepI_row (T : Tables W) (cur row row') (i : Instr) (s : VM W) : stepI (T.env cur row) i s = stepI (T.env cur row') i s := by
  cases i <;> rfl

/-! ## Lifting -/

/-- code that never gets out of its prefix -/
theorem exec_prefix {E : Env W} {off : Nat} {frag : List Instr} {s s' : VM W}
    (h : Exec E (List.replicate off (.jmp 0) ++ frag) s s') (hs : s.pc < off) : s'.pc < off := by
  induction h with
  | refl => exact hs
  | step hi hst _ ih =>
    rw [List.getElem?_append_left (by simpa using hs), List.getElem?_replicate, if_pos hs] at hi
    cases hi
    cases hst
    exact ih (by show 0 < off; omega)

theorem lift_exec {cur row off} {frag : List Instr} {xcode : List XInstr} {out : List Row}
    (hx : ∀ i x, frag[i]? = some x → xcode[off + i]? = some (.base x)) {s s' : VM W}
    (h : Exec (T.env cur row) (List.replicate off (.jmp 0) ++ frag) s s') (hs : off ≤ s.pc) (hs' : off ≤ s'.pc) :
    XExec T xcode ⟨s, cur, out⟩ ⟨s', cur, out⟩ := by
  induction h with
  | refl => exact .refl _
  | @step s i s1 s2 hi hst hex ih =>
    by_cases h1 : off ≤ s1.pc
    · rw [List.getElem?_append_right (by simpa using hs)] at hi
      simp only [List.length_replicate] at hi
      have := hx _ _ hi
      rw [show off + (s.pc - off) = s.pc by omega] at this
      refine .step this ?_ (ih h1 hs')
      show (stepI _ i s).map _ = _
      rw [stepI_row T cur _ row, hst]; rfl
    · exact absurd (exec_prefix hex (by omega)) (by omega)

theorem lift_fails {cur row off} {frag : List Instr} {xcode : List XInstr} {out : List Row} {e : Stop}
    (hx : ∀ i x, frag[i]? = some x → xcode[off + i]? = some (.base x)) {s : VM W}
    (h : Fails (T.env cur row) (List.replicate off (.jmp 0) ++ frag) s e) (hs : off ≤ s.pc) :
    XFails T xcode ⟨s, cur, out⟩ e := by
  obtain ⟨s', i, hex, hi, hst⟩ := h
  have hs' : off ≤ s'.pc := by
    by_cases h1 : off ≤ s'.pc
    · exact h1
    · rw [List.getElem?_append_left (by simp; omega), List.getElem?_replicate, if_pos (by omega)] at hi
      cases hi
      cases hst
  refine ⟨⟨s', cur, out⟩, .base i, lift_exec hx hex hs hs', ?_, ?_⟩
  · rw [List.getElem?_append_right (by simpa using hs')] at hi
    simp only [List.length_replicate] at hi
    have := hx _ _ hi
    rwa [show off + (s'.pc - off) = s'.pc by omega] at this
  · show (stepI _ i s').map _ = _
    rw [stepI_row T cur _ row, hst]; rfl

/-! ## Code -/

/-- the program has, from `lo` on, the code of `c`, with the jumps at `js` going to `B` -/
def Agree (code : List XInstr) (c : XCS) (lo : Nat) (js : List Nat) (B : Nat) : Prop :=
  ∀ p i, lo ≤ p → c.code[p]? = some i → code[p]? = some (if p ∈ js then i.setTo B else i)

/-- code was appended -/
def Ext (c c' : XCS) : Prop := ∃ f, c'.code = c.code ++ f

theorem Ext.refl (c : XCS) : Ext c c := ⟨[], by simp⟩
theorem Ext.trans {a b c : XCS} (h : Ext a b) (h' : Ext b c) : Ext a c := by
  obtain ⟨f, hf⟩ := h; obtain ⟨g, hg⟩ := h'
  exact ⟨f ++ g, by rw [hg, hf, List.append_assoc]⟩
theorem Ext.len {c c' : XCS} (h : Ext c c') : c.code.length ≤ c'.code.length := by
  obtain ⟨f, hf⟩ := h; rw [hf]; simp
theorem Ext.op (c : XCS) (i : XInstr) : Ext c (c.op i) := ⟨[i], rfl⟩
theorem Ext.at {c c' : XCS} (h : Ext c c') {p : Nat} {i : XInstr} (hi : c.code[p]? = some i) : c'.code[p]? = some i := by
  obtain ⟨f, hf⟩ := h
  rw [hf, List.getElem?_append_left ((List.getElem?_eq_some_iff.mp hi).1)]; exact hi
theorem op_at (c : XCS) (i : XInstr) : (c.op i).code[c.code.length]? = some i := by simp [XCS.op]
theorem op_len (c : XCS) (i : XInstr) : (c.op i).code.length = c.code.length + 1 := by simp [XCS.op]

theorem Agree.sub {code c' lo js B} (h : Agree code c' lo js B) {c : XCS} (he : Ext c c') {lo' : Nat} (hl : lo ≤ lo') :
    Agree code c lo' js B := fun p i hp hi => h p i (by omega) (he.at hi)

theorem setTo_idem (t : Nat) (i : XInstr) : (i.setTo t).setTo t = i.setTo t := by
  cases i with
  | base i => cases i <;> rfl
  | _ => rfl

theorem patch_at (c : XCS) (q t p : Nat) : (c.patch q t).code[p]? = (c.code[p]?).map fun i => if p = q then i.setTo t else i := by
  unfold XCS.patch
  show (c.code.modify q (XInstr.setTo t))[p]? = _
  rw [List.getElem?_modify]
  by_cases h : q = p
  · subst h; simp
  · simp [h, Ne.symm h]

theorem patch_len (c : XCS) (q t : Nat) : (c.patch q t).code.length = c.code.length := by simp [XCS.patch]
theorem patch_map (c : XCS) (q t : Nat) : (c.patch q t).map = c.map := rfl

theorem patchAll_at (c : XCS) (js : List Nat) (t p : Nat) :
    (c.patchAll js t).code[p]? = (c.code[p]?).map fun i => if p ∈ js then i.setTo t else i := by
  unfold XCS.patchAll
  induction js generalizing c with
  | nil => simp
  | cons j js ih =>
    rw [List.foldl_cons, ih, patch_at]
    cases c.code[p]? with
    | none => rfl
    | some i =>
      simp only [Option.map_some, Option.some.injEq, List.mem_cons]
      by_cases h1 : p = j
      · by_cases h2 : p ∈ js
        · rw [if_pos h2, if_pos h1, if_pos (.inl h1), setTo_idem]
        · rw [if_neg h2, if_pos h1, if_pos (.inl h1)]
      · by_cases h2 : p ∈ js
        · rw [if_pos h2, if_neg h1, if_pos (.inr h2)]
        · rw [if_neg h2, if_neg h1, if_neg (by simp [h1, h2])]
theorem patchAll_len (c : XCS) (js : List Nat) (t : Nat) : (c.patchAll js t).code.length = c.code.length := by
  unfold XCS.patchAll
  induction js generalizing c with
  | nil => rfl
  | cons j js ih => rw [List.foldl_cons, ih, patch_len]
theorem patchAll_map (c : XCS) (js : List Nat) (t : Nat) : (c.patchAll js t).map = c.map := by
  unfold XCS.patchAll
  induction js generalizing c with
  | nil => rfl
  | cons j js ih => rw [List.foldl_cons, ih, patch_map]

/-! ## Expressions -/

/-- the variables and functions have their types -/
structure FnsOk (T : Tables W) (S : Sig) (vars : List Val) : Prop where
  var : ∀ n, HasTy (vars.getD n .null) (S.varTy n)
  fn : ∀ f w a v w', S.fnDerive f = false → T.fn f w a = some (v, w') → HasTy v (S.fnTy f)
  derive : ∀ f w a v w' t, S.fnDerive f = true → (∀ x ∈ a, HasTy x t) → T.fn f w a = some (v, w') → HasTy v t

/-- the cursors of the tables that are being scanned are at their current rows, which have the types of the columns -/
structure CurOk (S : Sig) (cur : Nat → Option (List Row)) (rows : Nat → Option Row) : Prop where
  cur : ∀ t rc, S.cursor t = some rc → ∃ r rest, cur rc = some (r :: rest) ∧ rows t = some r
  ty : ∀ t r n v, rows t = some r → r[n]? = some v → HasTy v (S.colTy t n)

theorem curOk_any (S : Sig) : CurOk S (fun _ => some [[]]) (fun _ => some []) where
  cur _ _ _ := ⟨[], [], rfl, rfl⟩
  ty t r n v h1 h2 := by cases h1; simp at h2

theorem typed_of {S : Sig} {vars : List Val} (hf : FnsOk T S vars) {cur rows} (hc : CurOk S cur rows) :
    Typed (T.env cur (rowsOf rows)) S vars where
  col t n v h := by
    have h : ((rows t).bind fun r => r[n]?) = some v := h
    rw [Option.bind_eq_some_iff] at h
    obtain ⟨r, h1, h2⟩ := h
    exact hc.ty t r n v h1 h2
  cursor t rc n h := by
    obtain ⟨r, rest, h1, h2⟩ := hc.cur t rc h
    show curCol cur rc n = rowsOf rows t n
    simp [curCol, rowsOf, h1, h2]
  var := hf.var
  fn := hf.fn
  derive := hf.derive

/-- what an expression may not touch -/
structure Kept (m : List (Option Ty)) (x x' : XVM W) : Prop where
  stack : x'.vm.stack = x.vm.stack
  reg : ∀ i, atR m i ≠ none → x'.vm.reg i = x.vm.reg i
  cur : x'.cur = x.cur
  out : x'.out = x.out

theorem take_code (c : XCS) (d : CS) (frag : List Instr) (h : d.code = c.plain.code ++ frag) :
    (c.take d).code = c.code ++ frag.map .base := by
  unfold XCS.take
  show c.code ++ (d.code.drop c.code.length).map .base = _
  rw [h]
  congr 2
  have : c.plain.code.length = c.code.length := by simp [XCS.plain]
  rw [← this, List.drop_left]

theorem plain_len (c : XCS) : c.plain.code.length = c.code.length := by simp [XCS.plain]

/-- the fragment of an expression in the program -/
theorem agree_frag {code : List XInstr} {c : XCS} {d : CS} {frag : List Instr} (h : d.code = c.plain.code ++ frag) {js B}
    (ha : Agree code (c.take d) c.code.length js B) (hj : ∀ j ∈ js, j < c.code.length ∨ (c.take d).code.length ≤ j) :
    ∀ i x, frag[i]? = some x → code[c.code.length + i]? = some (.base x) := by
  intro i x hx
  have hl := (List.getElem?_eq_some_iff.mp hx).1
  have := ha (c.code.length + i) (.base x) (by omega) (by
    rw [take_code c d frag h, List.getElem?_append_right (by omega)]; simp [hx])
  rw [if_neg ?_] at this
  · exact this
  · intro hm
    have := hj _ hm
    rw [take_code c d frag h] at this
    simp at this
    omega

theorem xemit_sim {S : Sig} {vars : List Val} (hf : FnsOk T S vars) {e : Expr} (hok : e.Ok T.fn S.fnDerive)
    (hv : e.VarsOk vars.length) {c c' : XCS} {r : Nat} (h : xemit S e c = some (c', r)) :
    Ext c c' ∧ atR c.map r = none ∧ (∃ ty, ∀ i, atR c'.map i = if i = r then some ty else atR c.map i) ∧
    ∀ code js B, Agree code c' c.code.length js B → (∀ j ∈ js, j < c.code.length ∨ c'.code.length ≤ j) →
    ∀ rows x, CurOk S x.cur rows → x.vm.pc = c.code.length → HasVars vars x.vm.stack →
      (∀ v w, eval (T.sem rows) vars e x.vm.world = .ok (v, w) → ∃ x', XExec T code x x' ∧ x'.vm.pc = c'.code.length ∧
        (x'.vm.reg r).val = v ∧ x'.vm.world = w ∧ Kept c.map x x') ∧
      (∀ er, eval (T.sem rows) vars e x.vm.world = .error er → XFails T code x er) := by
  unfold xemit at h
  rw [Option.map_eq_some_iff] at h
  obtain ⟨⟨d, r⟩, hem, hd⟩ := h
  cases hd
  obtain ⟨frag, ty, hsh, _⟩ := sim (typed_of hf (curOk_any S)) e hok hv c.plain d r hem
  refine ⟨⟨_, take_code c d frag hsh.code⟩, hsh.fresh, ⟨ty, hsh.map⟩, fun code js B ha hj rows x hc hp hvs => ?_⟩
  obtain ⟨frag', ty', hsh', hr⟩ := sim (typed_of hf hc) e hok hv c.plain d r hem
  have : frag' = frag := List.append_cancel_left (hsh'.code.symm.trans hsh.code)
  subst this
  have hfr := agree_frag hsh.code ha hj
  obtain ⟨r1, r2⟩ := hr (List.replicate c.code.length (.jmp 0) ++ frag') x.vm (by
    have := Frag.self frag' c.plain.code []
    rw [List.append_nil] at this
    exact this) (by rw [hp, plain_len]) hvs
  refine ⟨fun v w hev => ?_, fun er hev => ?_⟩
  · obtain ⟨_, s', hx, po⟩ := r1 v w hev
    have hl : d.code.length = (c.take d).code.length := by
      rw [take_code c d frag' hsh.code, hsh.code]; simp [plain_len]
    refine ⟨⟨s', x.cur, x.out⟩, lift_exec hfr hx (by omega) ?_, ?_, po.val, po.world, ⟨po.stack, po.keep, rfl, rfl⟩⟩
    · rw [po.pc, hsh.code]; simp [plain_len]
    · show s'.pc = _
      rw [po.pc, hl]
  · exact lift_fails (out := x.out) hfr (r2 er hev) (by omega)

/-- what pushing may not touch -/
structure Pushed (m : List (Option Ty)) (x x' : XVM W) (vs : List Val) : Prop where
  stack : ∃ cells, x'.vm.stack = x.vm.stack ++ cells ∧ cells.map Cell.val = vs
  reg : ∀ i, atR m i ≠ none → x'.vm.reg i = x.vm.reg i
  cur : x'.cur = x.cur
  out : x'.out = x.out

theorem xargs_sim {S : Sig} {vars : List Val} (hf : FnsOk T S vars) {a : Args} (hok : a.Ok T.fn S.fnDerive)
    (hv : a.VarsOk vars.length) {c c' : XCS} {n : Nat} (h : xargs S a c = some (c', n)) :
    Ext c c' ∧ (∀ i, atR c'.map i = atR c.map i) ∧
    ∀ code js B, Agree code c' c.code.length js B → (∀ j ∈ js, j < c.code.length ∨ c'.code.length ≤ j) →
    ∀ rows x, CurOk S x.cur rows → x.vm.pc = c.code.length → HasVars vars x.vm.stack →
      (∀ vs w, evalArgs (T.sem rows) vars a x.vm.world = .ok (vs, w) → vs.length = n ∧ ∃ x', XExec T code x x' ∧
        x'.vm.pc = c'.code.length ∧ x'.vm.world = w ∧ Pushed c.map x x' vs) ∧
      (∀ er, evalArgs (T.sem rows) vars a x.vm.world = .error er → XFails T code x er) := by
  unfold xargs at h
  rw [Option.map_eq_some_iff] at h
  obtain ⟨⟨d, ts⟩, hem, hd⟩ := h
  cases hd
  obtain ⟨frag, tnew, hts, hcode, hmap, _⟩ := sim_args (typed_of hf (curOk_any S)) a hok hv c.plain [] d ts hem
  refine ⟨⟨_, take_code c d frag hcode⟩, hmap, fun code js B ha hj rows x hc hp hvs => ?_⟩
  obtain ⟨frag', tnew', hts', hcode', _, hr⟩ := sim_args (typed_of hf hc) a hok hv c.plain [] d ts hem
  have : frag' = frag := List.append_cancel_left (hcode'.symm.trans hcode)
  subst this
  have hfr := agree_frag hcode ha hj
  obtain ⟨r1, r2⟩ := hr (List.replicate c.code.length (.jmp 0) ++ frag') x.vm (by
    have := Frag.self frag' c.plain.code []
    rw [List.append_nil] at this
    exact this) (by rw [hp, plain_len]) hvs
  refine ⟨fun vs w hev => ?_, fun er hev => ?_⟩
  · obtain ⟨hlen, _, s', hx, po⟩ := r1 vs w hev
    have hl : d.code.length = (c.take d).code.length := by
      rw [take_code c d frag' hcode, hcode]; simp [plain_len]
    refine ⟨by rw [hlen, hts']; simp, ⟨s', x.cur, x.out⟩, lift_exec hfr hx (by omega) ?_, ?_, po.world, ⟨po.stack, po.keep, rfl, rfl⟩⟩
    · rw [po.pc, hcode]; simp [plain_len]
    · show s'.pc = _
      rw [po.pc, hl]
  · exact lift_fails (out := x.out) hfr (r2 er hev) (by omega)

end Verif.Compile
