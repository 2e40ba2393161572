import Verif.Net.AuthSpec
import Verif.Json.ParseSound
import Verif.Json.DecSkip
set_option linter.unusedSimpArgs false
set_option linter.unusedVariables false
namespace Verif.Net.Auth
open Verif Verif.Json Verif.Net.Table

/-! ## the parts of a token -/

theorem splitDot_iff : ∀ (s a b : Bytes), splitDot s = some (a, b) ↔ s = a ++ 46 :: b ∧ 46 ∉ a
  | [], a, b => by simp [splitDot]
  | c :: t, a, b => by
    simp only [splitDot]
    by_cases h : c = 46
    · rw [if_pos h]
      cases a with
      | nil => simp [h]
      | cons x a =>
        simp [h]
        intro h1 h2 h3; omega
    · rw [if_neg h]
      cases a with
      | nil =>
        simp
        intro h1; exact absurd h1 h
      | cons x a =>
        constructor
        · intro hm
          cases hs : splitDot t with
          | none => rw [hs] at hm; cases hm
          | some p =>
            obtain ⟨p1, p2⟩ := p
            rw [hs] at hm
            simp at hm
            obtain ⟨⟨rfl, rfl⟩, rfl⟩ := hm
            obtain ⟨h1, h2⟩ := (splitDot_iff t p1 p2).1 hs
            refine ⟨by rw [h1]; rfl, ?_⟩
            simp; exact ⟨fun e => h e.symm, h2⟩
        · rintro ⟨h1, h2⟩
          simp at h1 h2
          obtain ⟨rfl, rfl⟩ := h1
          rw [(splitDot_iff _ a b).2 ⟨rfl, h2.2⟩]
          rfl

theorem bearer_len : (str "Bearer ").length = 7 := by decide

theorem jwtDecode_iff (token : Bytes) (q : Parts) : jwtDecode token = .ok q ↔
    token = str "Bearer " ++ q.header ++ [46] ++ q.payload ++ [46] ++ q.digest ∧ q.header ≠ [] ∧ q.payload ≠ [] ∧
    q.digest ≠ [] ∧ 46 ∉ q.header ∧ 46 ∉ q.payload ∧ q.origin = q.header ++ [46] ++ q.payload := by
  unfold jwtDecode
  constructor
  · intro h
    split at h
    · cases h
    · rename_i hb
      have hb' : token.take 7 = str "Bearer " := Decidable.not_not.1 hb
      split at h
      · cases h
      · rename_i header rest hs
        split at h
        · cases h
        · rename_i h1
          split at h
          · cases h
          · rename_i payload digest hs2
            split at h
            · cases h
            · split at h
              · cases h
              · cases h
                obtain ⟨a1, a2⟩ := (splitDot_iff _ _ _).1 hs
                obtain ⟨b1, b2⟩ := (splitDot_iff _ _ _).1 hs2
                refine ⟨?_, h1, by assumption, by assumption, a2, b2, by simp⟩
                rw [← List.take_append_drop 7 token, hb', a1, b1]; simp
  · rintro ⟨h1, h2, h3, h4, h5, h6, h7⟩
    have e1 : token.take 7 = str "Bearer " := by
      rw [h1]; simp only [List.append_assoc]; rw [List.take_append_of_le_length (by decide)]; decide
    have e2 : token.drop 7 = q.header ++ 46 :: (q.payload ++ 46 :: q.digest) := by
      rw [h1]; simp only [List.append_assoc]
      rw [List.drop_append_of_le_length (by decide)]
      have : (str "Bearer ").drop 7 = [] := by decide
      rw [this]; simp
    have e3 := (splitDot_iff _ q.header (q.payload ++ 46 :: q.digest)).2 ⟨e2, h5⟩
    have e4 := (splitDot_iff (q.payload ++ 46 :: q.digest) q.payload q.digest).2 ⟨rfl, h6⟩
    rw [if_neg (by rw [e1]; simp)]
    simp only [e3, e4, h2, h3, h4, if_false]
    obtain ⟨a, b, c, d⟩ := q
    simp at h7 ⊢; exact h7.symm

/-! ## decode_obj on fields -/

/-- the value that is stored for a field -/
def conv : Want → J → Option Got
  | .str, .str s => some (.str s)
  | .int, .int i => some (.int i)
  | _, _ => none

def wants (keys : List (Bytes × Want)) (k : Bytes) : Option (Bytes × Want) := keys.find? fun x => decide (x.1 = k)

/-- the loop of decode_obj on values -/
def gather (keys : List (Bytes × Want)) : List (Bytes × Got) → List (Bytes × J) → Option (List (Bytes × Got))
  | got, [] => some got
  | got, (k, v) :: t => match wants keys k with
    | none => gather keys got t
    | some w => (conv w.2 v).elim none fun g => gather keys ((k, g) :: got) t

theorem dec_readWant (w : Want) {fuel : Nat} {bs r : Bytes} {v : J} (h : Json.dec fuel bs = .ok (v, r)) :
    readWant w bs = (conv w v).elim (.error .err) fun g => .ok (g, r) := by
  cases fuel with
  | zero => simp [Json.dec] at h
  | succ fuel =>
    cases bs with
    | nil => simp [Json.dec, peek, bind, Except.bind] at h
    | cons t b =>
      simp only [Json.dec, peek, bind, Except.bind] at h
      cases hc : clsOf t <;> rw [hc] at h <;> simp only at h
      case str =>
        cases hr : readRaw (t :: b) with
        | error e => rw [hr] at h; cases h
        | ok p =>
          rw [hr] at h; cases h
          cases w <;> simp [readWant, peek, Except.bind, hc, hr, conv]
      case int =>
        cases hr : readInteger (t :: b) with
        | error e => rw [hr] at h; cases h
        | ok p =>
          rw [hr] at h; cases h
          cases w <;> simp [readWant, peek, Except.bind, hc, hr, conv]
      case null =>
        split at h
        · cases h
        · cases h; cases w <;> simp [readWant, peek, Except.bind, hc, conv]
      case bool =>
        split at h
        · cases h
        · cases h; cases w <;> simp [readWant, peek, Except.bind, hc, conv]
      case real =>
        split at h
        · cases h
        · cases h; cases w <;> simp [readWant, peek, Except.bind, hc, conv]
      case arr =>
        split at h
        · cases h
        · split at h
          · cases h
          · cases h; cases w <;> simp [readWant, peek, Except.bind, hc, conv]
      case obj =>
        split at h
        · cases h
        · split at h
          · cases h
          · cases h; cases w <;> simp [readWant, peek, Except.bind, hc, conv]
      all_goals cases h

theorem decodeLoop_eq (keys : List (Bytes × Want)) : ∀ (fuel : Nat) (bs r : Bytes) (fs : List (Bytes × J)) (fuel' : Nat)
    (got : List (Bytes × Got)), decFields fuel bs = .ok (fs, r) → bs.length < fuel' →
    decodeLoop keys fuel' got bs = (gather keys got fs).elim (.error .err) .ok
  | 0, bs, r, fs, fuel', got, h, hf => by simp [decFields] at h
  | fuel + 1, bs, r, fs, 0, got, h, hf => by omega
  | fuel + 1, bs, r, fs, fuel' + 1, got, h, hf => by
    cases bs with
    | nil => simp [decFields, readObjEnd, bind, Except.bind] at h
    | cons t b =>
      simp only [decFields, readObjEnd, bind, Except.bind] at h
      by_cases ht : t = 79
      · simp only [ht, if_true] at h
        cases h
        simp [decodeLoop, readObjEnd, ht, Except.bind, gather]
      · simp only [ht, if_false] at h
        cases hk : readRaw (t :: b) with
        | error e => rw [hk] at h; cases h
        | ok k =>
          rw [hk] at h
          simp only at h
          cases hr : Json.dec fuel k.2 with
          | error e => rw [hr] at h; cases h
          | ok p =>
            rw [hr] at h
            simp only at h
            cases hr2 : decFields fuel p.2 with
            | error e => rw [hr2] at h; cases h
            | ok p2 =>
              rw [hr2] at h
              cases h
              obtain ⟨kk, kr⟩ := k
              obtain ⟨v, vr⟩ := p
              obtain ⟨l, lr⟩ := p2
              have hl1 := readRaw_len hk
              obtain ⟨hs, hl2⟩ := dec_skip hr
              simp only [decodeLoop, readObjEnd, ht, if_false, Except.bind, Option.elim, hk, readField]
              simp only [gather, wants]
              cases hw : keys.find? (fun x => decide (x.1 = kk)) with
              | none =>
                simp only [Except.bind, hs]
                rw [decodeLoop_eq keys fuel vr lr l fuel' _ hr2 (by simp only at hl1 hl2 hf ⊢; omega)]
                simp only [Option.toList_none, List.nil_append, Option.elim]
              | some w =>
                simp only [Except.bind, dec_readWant w.2 hr]
                cases hcv : conv w.2 v with
                | none => simp
                | some g =>
                  simp only [Option.elim]
                  rw [decodeLoop_eq keys fuel vr lr l fuel' _ hr2 (by simp only at hl1 hl2 hf ⊢; omega)]
                  simp only [Option.toList_some, List.cons_append, List.nil_append, Option.elim]

/-- decode_obj on a value -/
def decodeJ (keys : List (Bytes × Want)) : J → Option (List (Bytes × Got))
  | .obj fs => (gather keys [] fs).bind fun got => if keys.all fun k => got.any fun g => decide (g.1 = k.1) then some got else none
  | _ => none

theorem decodeObj_eq (keys : List (Bytes × Want)) {bs r : Bytes} {v : J} (h : decode bs = .ok (v, r)) :
    decodeObj keys bs = (decodeJ keys v).elim (.error .err) .ok := by
  unfold decode at h
  cases bs with
  | nil => simp [Json.dec, peek, bind, Except.bind] at h
  | cons t b =>
    simp only [List.length_cons, Json.dec, peek, bind, Except.bind] at h
    have hno : ∀ v', v = v' → (∀ fs, v' ≠ .obj fs) → t ≠ 78 → decodeObj keys (t :: b) = (decodeJ keys v).elim (.error .err) .ok := by
      intro v' he hn ht
      subst he
      have : decodeJ keys v = none := by
        cases v <;> first | rfl | exact absurd rfl (hn _)
      rw [this]
      simp [decodeObj, readObj, ht, Except.bind]
    have hcls : t = 78 → clsOf t = .obj := by intro h; subst h; decide
    cases hc : clsOf t <;> rw [hc] at h <;> simp only at h
    case obj =>
      simp only [readObj] at h
      by_cases ht : t = 78
      · simp only [ht, if_true] at h
        cases hd : decFields (b.length + 1) b with
        | error e => rw [hd] at h; cases h
        | ok p =>
          obtain ⟨fs, rr⟩ := p
          rw [hd] at h
          cases h
          simp only [decodeObj, readObj, ht, if_true, Except.bind]
          rw [decodeLoop_eq keys _ b rr fs _ [] hd (by omega)]
          simp only [decodeJ]
          cases gather keys [] fs with
          | none => rfl
          | some got =>
            simp only [Option.elim, Option.bind]
            split <;> rfl
      · simp only [ht, if_false] at h; cases h
    case str =>
      have ht : t ≠ 78 := fun e => by rw [hcls e] at hc; cases hc
      split at h
      · cases h
      · cases h; exact hno _ rfl (by simp) ht
    case int =>
      have ht : t ≠ 78 := fun e => by rw [hcls e] at hc; cases hc
      split at h
      · cases h
      · cases h; exact hno _ rfl (by simp) ht
    case null =>
      have ht : t ≠ 78 := fun e => by rw [hcls e] at hc; cases hc
      split at h
      · cases h
      · cases h; exact hno _ rfl (by simp) ht
    case bool =>
      have ht : t ≠ 78 := fun e => by rw [hcls e] at hc; cases hc
      split at h
      · cases h
      · cases h; exact hno _ rfl (by simp) ht
    case real =>
      have ht : t ≠ 78 := fun e => by rw [hcls e] at hc; cases hc
      split at h
      · cases h
      · cases h; exact hno _ rfl (by simp) ht
    case arr =>
      have ht : t ≠ 78 := fun e => by rw [hcls e] at hc; cases hc
      split at h
      · cases h
      · split at h
        · cases h
        · cases h; exact hno _ rfl (by simp) ht
    all_goals cases h

/-! ## claims -/

/-- the values stored by `gather` -/
def stored (keys : List (Bytes × Want)) (x : Bytes × J) : Option (Bytes × Got) :=
  (wants keys x.1).bind fun w => (conv w.2 x.2).map fun g => (x.1, g)

theorem gather_some (keys : List (Bytes × Want)) : ∀ (fs : List (Bytes × J)) (got : List (Bytes × Got)),
    (∀ x ∈ fs, ∀ w, wants keys x.1 = some w → conv w.2 x.2 ≠ none) →
    gather keys got fs = some (fs.reverse.filterMap (stored keys) ++ got)
  | [], got, h => by simp [gather]
  | (k, v) :: t, got, h => by
    simp only [gather, List.reverse_cons, List.filterMap_append]
    have ht := fun got => gather_some keys t got (fun x hx => h x (by simp [hx]))
    cases hw : wants keys k with
    | none => simp only; rw [ht]; simp [stored, hw]
    | some w =>
      have := h (k, v) (by simp) w hw
      cases hc : conv w.2 v with
      | none => exact absurd hc this
      | some g => simp only [Option.elim, hc]; rw [ht]; simp [stored, hw, hc]

theorem gather_ok (keys : List (Bytes × Want)) : ∀ (fs : List (Bytes × J)) (got got' : List (Bytes × Got)),
    gather keys got fs = some got' → ∀ x ∈ fs, ∀ w, wants keys x.1 = some w → conv w.2 x.2 ≠ none
  | [], got, got', h, x, hx, w, hw => by cases hx
  | (k, v) :: t, got, got', h, x, hx, w, hw => by
    simp only [gather] at h
    rcases List.mem_cons.1 hx with rfl | hx
    · simp only at hw ⊢
      rw [hw] at h
      intro hc
      simp only [hc, Option.elim] at h; cases h
    · cases hw' : wants keys k with
      | none => rw [hw'] at h; exact gather_ok keys t _ _ h x hx w hw
      | some w' =>
        rw [hw'] at h
        simp only at h
        cases hc : conv w'.2 v with
        | none => rw [hc] at h; cases h
        | some g => rw [hc] at h; exact gather_ok keys t _ _ h x hx w hw

/-- the last field of a name -/
theorem last_iff (fs : List (Bytes × J)) (k : Bytes) (v : J) :
    (fs.reverse.find? fun x => decide (x.1 = k)) = some (k, v) ↔
      ∃ pre post, fs = pre ++ (k, v) :: post ∧ ∀ v, (k, v) ∉ post := by
  rw [List.find?_eq_some_iff_append]
  simp only [decide_true, true_and]
  constructor
  · rintro ⟨as, bs, h1, h2⟩
    refine ⟨bs.reverse, as.reverse, ?_, ?_⟩
    · have := congrArg List.reverse h1
      simpa using this
    · intro w hw
      have := h2 (k, w) (by simpa using hw)
      simp at this
  · rintro ⟨pre, post, h1, h2⟩
    refine ⟨post.reverse, pre.reverse, by rw [h1]; simp, ?_⟩
    intro a ha
    simp at ha ⊢
    intro hk
    exact h2 a.2 (by rw [← hk]; exact ha)

theorem find_stored (keys : List (Bytes × Want)) (fs : List (Bytes × J)) (k : Bytes) (w : Bytes × Want) (hw : wants keys k = some w)
    (hall : ∀ x ∈ fs, ∀ w, wants keys x.1 = some w → conv w.2 x.2 ≠ none) :
    ((fs.reverse.filterMap (stored keys)).find? fun g => decide (g.1 = k)) =
      (fs.reverse.find? fun x => decide (x.1 = k)).bind (stored keys) := by
  rw [List.find?_filterMap]
  congr 1
  have : ∀ l : List (Bytes × J), (∀ x ∈ l, x ∈ fs) →
      l.find? (fun a => (stored keys a).any fun g => decide (g.1 = k)) = l.find? fun x => decide (x.1 = k) := by
    intro l
    induction l with
    | nil => intro _; rfl
    | cons x l ih =>
      intro hl
      have hx := hl x (by simp)
      have e : ((stored keys x).any fun g => decide (g.1 = k)) = decide (x.1 = k) := by
        by_cases he : x.1 = k
        · have hw' : wants keys x.1 = some w := by rw [he]; exact hw
          have := hall x hx w hw'
          cases hc : conv w.2 x.2 with
          | none => exact absurd hc this
          | some g => simp [stored, hw, hc, he]
        · cases hs : stored keys x with
          | none => simp [he]
          | some g =>
            have hg : g.1 = x.1 := by
              unfold stored at hs
              cases hw2 : wants keys x.1 with
              | none => rw [hw2] at hs; cases hs
              | some w2 =>
                rw [hw2] at hs
                simp only [Option.bind] at hs
                cases hc : conv w2.2 x.2 with
                | none => rw [hc] at hs; cases hs
                | some g2 => rw [hc] at hs; cases hs; rfl
            simp [hg, he]
      rw [List.find?_cons, List.find?_cons, e]
      split
      · rfl
      · exact ih (fun x hx => hl x (by simp [hx]))
  exact this _ (by intro x hx; simpa using hx)

/-- what decode_obj finds for a key of a kind -/
def ClaimOf (fs : List (Bytes × J)) (k : Bytes) : Want → Got → Prop
  | .str, .str s => StrClaim fs k s
  | .int, .int i => IntClaim fs k i
  | _, _ => False

theorem decodeJ_iff (keys : List (Bytes × Want)) (hk : ∀ k ∈ keys, wants keys k.1 = some k) (fs : List (Bytes × J))
    (got : List (Bytes × Got)) (h : decodeJ keys (.obj fs) = some got) :
    ∀ k ∈ keys, ∃ g, got.find? (fun g => decide (g.1 = k.1)) = some (k.1, g) ∧ ClaimOf fs k.1 k.2 g := by
  simp only [decodeJ] at h
  cases hg : gather keys [] fs with
  | none => rw [hg] at h; cases h
  | some got0 =>
    rw [hg] at h
    simp only [Option.bind] at h
    split at h
    · rename_i hall
      cases h
      have hok := gather_ok keys fs _ _ hg
      have heq := gather_some keys fs [] hok
      rw [hg] at heq
      simp only [Option.some.injEq, List.append_nil] at heq
      intro k hkm
      have hw := hk k hkm
      have hany := List.all_eq_true.1 hall k hkm
      rw [heq, find_stored keys fs k.1 k hw hok]
      rw [heq] at hany
      cases hf : fs.reverse.find? (fun x => decide (x.1 = k.1)) with
      | none =>
        exfalso
        have := find_stored keys fs k.1 k hw hok
        rw [hf] at this
        simp only [Option.bind] at this
        rw [List.find?_eq_none] at this
        obtain ⟨g, hgm, hg1⟩ := List.any_eq_true.1 hany
        exact this g hgm hg1
      | some x =>
        have hx1 := List.find?_some hf
        simp only [decide_eq_true_eq] at hx1
        obtain ⟨xk, xv⟩ := x
        simp only at hx1
        subst hx1
        have hxm : (k.1, xv) ∈ fs := by simpa using List.mem_of_find?_eq_some hf
        have hne := hok _ hxm k hw
        have htyp : ∀ v, (k.1, v) ∈ fs → conv k.2 v ≠ none := fun v hv => hok _ hv k hw
        cases hc : conv k.2 xv with
        | none => exact absurd hc hne
        | some g =>
          refine ⟨g, by simp [stored, hw, hc], ?_⟩
          have hlast := (last_iff fs k.1 xv).1 hf
          revert hc htyp
          cases k.2 <;> cases xv <;> simp [conv] <;> intro htyp hc <;> subst hc
          · refine ⟨?_, hlast⟩
            intro v hv
            have := htyp v hv
            cases v <;> simp [conv] at this; exact ⟨_, rfl⟩
          · refine ⟨?_, hlast⟩
            intro v hv
            have := htyp v hv
            cases v <;> simp [conv] at this; exact ⟨_, rfl⟩
    · cases h

theorem decodeJ_complete (keys : List (Bytes × Want)) (hk : ∀ k w, wants keys k = some w → w ∈ keys ∧ w.1 = k)
    (hk2 : ∀ k ∈ keys, wants keys k.1 = some k) (fs : List (Bytes × J))
    (h : ∀ k ∈ keys, ∃ g, ClaimOf fs k.1 k.2 g) : ∃ got, decodeJ keys (.obj fs) = some got := by
  have hok : ∀ x ∈ fs, ∀ w, wants keys x.1 = some w → conv w.2 x.2 ≠ none := by
    intro x hx w hw
    obtain ⟨hwm, hw1⟩ := hk _ _ hw
    obtain ⟨g, hg⟩ := h w hwm
    obtain ⟨wk, wt⟩ := w
    simp only at hw1 hg ⊢
    subst hw1
    cases wt <;> cases g <;> simp only [ClaimOf] at hg
    · obtain ⟨s, hs⟩ := hg.1 x.2 hx
      simp [hs, conv]
    · obtain ⟨s, hs⟩ := hg.1 x.2 hx
      simp [hs, conv]
  have heq := gather_some keys fs [] hok
  simp only [decodeJ, heq, Option.bind, List.append_nil]
  refine ⟨_, if_pos ?_⟩
  rw [List.all_eq_true]
  intro k hkm
  have hf := find_stored keys fs k.1 k (hk2 k hkm) hok
  obtain ⟨g, hg⟩ := h k hkm
  have : ∃ v, fs.reverse.find? (fun x => decide (x.1 = k.1)) = some (k.1, v) := by
    obtain ⟨kk, kt⟩ := k
    cases kt <;> cases g <;> simp only [ClaimOf] at hg
    · exact ⟨_, (last_iff _ _ _).2 hg.2⟩
    · exact ⟨_, (last_iff _ _ _).2 hg.2⟩
  obtain ⟨v, hv⟩ := this
  have hvm : (k.1, v) ∈ fs := by simpa using List.mem_of_find?_eq_some hv
  have hne := hok _ hvm k (hk2 k hkm)
  cases hc : conv k.2 v with
  | none => exact absurd hc hne
  | some g' =>
    rw [hv] at hf
    simp only [Option.bind, stored, hk2 k hkm, hc, Option.map_some] at hf
    exact List.any_eq_true.2 ⟨_, List.mem_of_find?_eq_some hf, by simp⟩

theorem claim_unique {fs : List (Bytes × J)} {k : Bytes} {w : Want} {g g' : Got} (h : ClaimOf fs k w g) (h' : ClaimOf fs k w g') : g = g' := by
  cases w <;> cases g <;> cases g' <;> simp only [ClaimOf] at h h'
  · have a := (last_iff _ _ _).2 h.2
    have b := (last_iff _ _ _).2 h'.2
    rw [a] at b; cases b; rfl
  · have a := (last_iff _ _ _).2 h.2
    have b := (last_iff _ _ _).2 h'.2
    rw [a] at b; cases b; rfl

end Verif.Net.Auth
