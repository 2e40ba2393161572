import Verif.Json.ParseProofs
import Verif.Json.Skip
/-!
# What the parser accepts is a well-formed document

`parse` is a loop over a stack of states; the invariant `PSt` relates the stack to the part of the document that
has been written.
-/
set_option linter.unusedSimpArgs false
set_option linter.unusedVariables false
namespace Verif.Json.Text
open Verif Verif.Json

/-- `e` is a complete document with the value `v`: every reader and json_skip stop exactly at its end -/
structure Doc (e : Bytes) (v : J) : Prop where
  head : ∃ t r, e = t :: r ∧ t ≠ 79 ∧ t ≠ 81
  dec : ∀ fuel tail, e.length ≤ fuel → dec fuel (e ++ tail) = .ok (v, tail)
  skip : ∃ n, n ≤ e.length ∧ ∀ f level tail, 0 ≤ level → skipLoop (f + n) level (e ++ tail) = skipCont f level tail

structure KeyDoc (e k : Bytes) : Prop where
  head : ∃ t r, e = t :: r ∧ 42 ≤ t ∧ t ≤ 77
  read : ∀ tail, readRaw (e ++ tail) = .ok (k, tail)

theorem Doc.pos {e : Bytes} {v : J} (h : Doc e v) : 1 ≤ e.length := by
  obtain ⟨t, r, rfl, _⟩ := h.head; simp

theorem KeyDoc.pos {e k : Bytes} (h : KeyDoc e k) : 1 ≤ e.length := by
  obtain ⟨t, r, rfl, _⟩ := h.head; simp

theorem Doc.skips {e : Bytes} {v : J} (h : Doc e v) (tail : Bytes) : Json.skip (e ++ tail) = .ok tail := by
  obtain ⟨n, hn, hs⟩ := h.skip
  unfold Json.skip
  have e1 : (e ++ tail).length = (e.length - n + tail.length) + n := by simp; omega
  rw [e1, hs _ 0 tail (by omega)]
  simp [skipCont]

theorem Doc.decodes {e : Bytes} {v : J} (h : Doc e v) (tail : Bytes) : decode (e ++ tail) = .ok (v, tail) :=
  h.dec _ _ (by simp; omega)

theorem doc_step {e : Bytes} {v : J} (hh : ∃ t r, e = t :: r ∧ t ≠ 79 ∧ t ≠ 81)
    (hd : ∀ f tail, Json.dec (f + 1) (e ++ tail) = .ok (v, tail))
    (hs : ∀ level tail, skipStep level (e ++ tail) = .ok (tail, level)) : Doc e v where
  head := hh
  dec := by
    intro fuel tail hf
    obtain ⟨t, r, he, _⟩ := hh
    obtain ⟨f, rfl⟩ : ∃ f, fuel = f + 1 := ⟨fuel - 1, by simp [he] at hf; omega⟩
    exact hd f tail
  skip := by
    obtain ⟨t, r, he, _⟩ := hh
    refine ⟨1, by simp [he], ?_⟩
    intro f level tail _
    exact skipLoop_of_step f (hs level tail)

theorem doc_null : Doc [tNULL] .null :=
  doc_step ⟨0, [], rfl, by decide, by decide⟩ (fun _ _ => rfl) (fun _ _ => rfl)

theorem doc_bool (b : Bool) : Doc (writeBool b) (.bool b) := by
  obtain ⟨t, h, ht⟩ := writeBool_head b
  refine doc_step ⟨t, [], h, by omega, by omega⟩ ?_ ?_ <;> cases b <;> intros <;> rfl

theorem doc_int (i : Int) (h1 : -(2 ^ 63) ≤ i) (h2 : i < 2 ^ 63) : Doc (writeInteger i) (.int i) := by
  obtain ⟨t, r, h, ht⟩ := writeInteger_head i
  exact doc_step ⟨t, r, h, by omega, by omega⟩ (fun f tail => dec_int f i h1 h2 tail)
    (fun level tail => skipStep_int i h1 h2 level tail)

theorem doc_real (q : Nat) (h : q < 2 ^ 64) : Doc (writeReal q) (.real (storedReal q)) := by
  obtain ⟨t, r, he, ht⟩ := writeReal_head q
  exact doc_step ⟨t, r, he, by omega, by omega⟩ (fun f tail => dec_real f q h tail)
    (fun level tail => skipStep_real q h level tail)

theorem key_raw (s : Bytes) (h : s.length < 2 ^ 31) : KeyDoc (writeRaw s) s :=
  ⟨writeRaw_head s, fun tail => readRaw_write s h tail⟩

theorem key_str32 (s : Bytes) (h : s.length < 2 ^ 31) : KeyDoc (writeString32 s) s := by
  refine ⟨⟨77, leBytes 4 s.length ++ s, rfl, by omega, by omega⟩, ?_⟩
  intro tail
  have h1 : leNat (leBytes 4 s.length) = s.length := leNat_leBytes_of_lt (by omega)
  simp only [writeString32, List.cons_append, List.append_assoc, readRaw, readN_le]
  simp only [bind, Except.bind, h1]
  simp (config := {decide := true}) only [if_false, if_true]
  apply takeRaw_append
  simp only [toSigned]; split <;> omega

theorem KeyDoc.skipStep {e k : Bytes} (h : KeyDoc e k) (level : Int) (tail : Bytes) :
    Json.skipStep level (e ++ tail) = .ok (tail, level) := by
  have := h.read tail
  obtain ⟨t, r, h, ht⟩ := h.head
  rw [h] at this ⊢
  simp only [Json.skipStep, List.cons_append, peek, bind, Except.bind, clsOf_str t ht] at this ⊢
  rw [this]

theorem KeyDoc.doc {e k : Bytes} (h : KeyDoc e k) : Doc e (.str k) := by
  obtain ⟨t, r, he, ht⟩ := h.head
  refine doc_step ⟨t, r, he, by omega, by omega⟩ ?_ (fun level tail => h.skipStep level tail)
  intro f tail
  have := h.read tail
  rw [he] at this ⊢
  simp only [Json.dec, List.cons_append, peek, bind, Except.bind, clsOf_str t ht] at this ⊢
  rw [this]

theorem doc_list : ∀ (ps : List (Bytes × J)), (∀ p ∈ ps, Doc p.1 p.2) → ∀ (fuel : Nat) (tail : Bytes),
    (ps.flatMap (·.1)).length + 1 ≤ fuel →
    decList fuel (ps.flatMap (·.1) ++ tARRAY_END :: tail) = .ok (ps.map (·.2), tail)
  | [], _, fuel, tail, hf => by
    obtain ⟨f, rfl⟩ : ∃ f, fuel = f + 1 := ⟨fuel - 1, by omega⟩
    rfl
  | (e, v) :: t, hw, fuel, tail, hf => by
    obtain ⟨f, rfl⟩ : ∃ f, fuel = f + 1 := ⟨fuel - 1, by omega⟩
    have hd := hw (e, v) (by simp)
    have hp := hd.pos
    simp only [List.flatMap_cons, List.length_append] at hf
    have h1 := hd.dec f (t.flatMap (·.1) ++ tARRAY_END :: tail) (by simp only at hp ⊢; omega)
    have h2 := doc_list t (fun p hp => hw p (by simp [hp])) f tail (by simp only at hp; omega)
    have h3 : readArrayEnd (e ++ (t.flatMap (·.1) ++ (tARRAY_END :: tail))) = .ok none := by
      obtain ⟨x, r, h, _, h2⟩ := hd.head
      simp only at h
      simp [h, readArrayEnd, h2]
    simp only [List.flatMap_cons, List.append_assoc, decList]
    rw [h3]
    simp only [bind, Except.bind, h1, h2, List.map_cons]

/-- the parts of a field: the bytes of the key, the key, the bytes of the value, the value -/
abbrev Fld := (Bytes × Bytes) × (Bytes × J)

def FldOk (q : Fld) : Prop := KeyDoc q.1.1 q.1.2 ∧ Doc q.2.1 q.2.2

def fldBytes (qs : List Fld) : Bytes := qs.flatMap fun q => q.1.1 ++ q.2.1

theorem doc_fields : ∀ (qs : List Fld), (∀ q ∈ qs, FldOk q) → ∀ (fuel : Nat) (tail : Bytes),
    (fldBytes qs).length + 1 ≤ fuel →
    decFields fuel (fldBytes qs ++ tOBJ_END :: tail) = .ok (qs.map fun q => (q.1.2, q.2.2), tail)
  | [], _, fuel, tail, hf => by
    obtain ⟨f, rfl⟩ : ∃ f, fuel = f + 1 := ⟨fuel - 1, by omega⟩
    rfl
  | ((ke, k), (e, v)) :: t, hw, fuel, tail, hf => by
    obtain ⟨f, rfl⟩ : ∃ f, fuel = f + 1 := ⟨fuel - 1, by omega⟩
    obtain ⟨hk, hd⟩ := hw ((ke, k), (e, v)) (by simp)
    have hp := hd.pos
    have hp' := hk.pos
    simp only at hk hd hp hp'
    simp only [fldBytes, List.flatMap_cons, List.length_append] at hf
    have h0 := hk.read (e ++ (fldBytes t ++ tOBJ_END :: tail))
    have h1 := hd.dec f (fldBytes t ++ tOBJ_END :: tail) (by omega)
    have h2 := doc_fields t (fun p hp => hw p (by simp [hp])) f tail (by simp only [fldBytes]; omega)
    have h3 : readObjEnd (ke ++ (e ++ (fldBytes t ++ (tOBJ_END :: tail)))) = .ok none := by
      obtain ⟨x, r, h, h2⟩ := hk.head
      have : x ≠ 79 := by omega
      simp [h, readObjEnd, this]
    have e0 : fldBytes (((ke, k), (e, v)) :: t) = ke ++ e ++ fldBytes t := by simp [fldBytes]
    rw [e0]
    simp only [List.append_assoc, decFields]
    rw [h3]
    simp only [bind, Except.bind, h0, h1, h2, List.map_cons]

theorem skip_list : ∀ (ps : List (Bytes × J)), (∀ p ∈ ps, Doc p.1 p.2) → ∃ n, n ≤ (ps.flatMap (·.1)).length ∧
    ∀ f level tail, 0 < level → skipLoop (f + n) level (ps.flatMap (·.1) ++ tail) = skipLoop f level tail
  | [], _ => ⟨0, by simp, fun _ _ _ _ => rfl⟩
  | (e, v) :: t, hw => by
    obtain ⟨n1, h1, h2⟩ := (hw (e, v) (by simp)).skip
    obtain ⟨n2, h3, h4⟩ := skip_list t (fun p hp => hw p (by simp [hp]))
    simp only at h1 h2
    refine ⟨n2 + n1, by simp only [List.flatMap_cons, List.length_append]; omega, ?_⟩
    intro f level tail hl
    simp only [List.flatMap_cons, List.append_assoc]
    rw [← Nat.add_assoc, h2 _ _ _ (by omega), skipCont, if_pos hl, h4 _ _ _ hl]

theorem skip_fields : ∀ (qs : List Fld), (∀ q ∈ qs, FldOk q) → ∃ n, n ≤ (fldBytes qs).length ∧
    ∀ f level tail, 0 < level → skipLoop (f + n) level (fldBytes qs ++ tail) = skipLoop f level tail
  | [], _ => ⟨0, by simp, fun _ _ _ _ => rfl⟩
  | ((ke, k), (e, v)) :: t, hw => by
    obtain ⟨hk, hd⟩ := hw ((ke, k), (e, v)) (by simp)
    obtain ⟨n1, h1, h2⟩ := hd.skip
    obtain ⟨n2, h3, h4⟩ := skip_fields t (fun p hp => hw p (by simp [hp]))
    have hp' := hk.pos
    simp only at hk hd h1 h2 hp'
    have e0 : fldBytes (((ke, k), (e, v)) :: t) = ke ++ e ++ fldBytes t := by simp [fldBytes]
    refine ⟨n2 + n1 + 1, by rw [e0]; simp only [List.length_append]; omega, ?_⟩
    intro f level tail hl
    rw [e0]
    simp only [List.append_assoc]
    have e1 : f + (n2 + n1 + 1) = (f + n2 + n1) + 1 := by omega
    rw [e1, skipLoop_of_step _ (hk.skipStep level _), skipCont, if_pos hl, h2 _ _ _ (by omega), skipCont, if_pos hl,
      h4 _ _ _ hl]

theorem doc_arr (ps : List (Bytes × J)) (h : ∀ p ∈ ps, Doc p.1 p.2) :
    Doc (tARRAY :: (ps.flatMap (·.1) ++ [tARRAY_END])) (.arr (ps.map (·.2))) where
  head := ⟨_, _, rfl, by decide, by decide⟩
  dec := by
    intro fuel tail hf
    obtain ⟨f, rfl⟩ : ∃ f, fuel = f + 1 := ⟨fuel - 1, by simp at hf; omega⟩
    have := doc_list ps h f tail (by simp only [List.length_cons, List.length_append] at hf; omega)
    simp only [List.cons_append, List.append_assoc, List.nil_append]
    simp only [Json.dec, peek, bind, Except.bind, show clsOf tARRAY = .arr by decide, readArray, if_true, this]
  skip := by
    obtain ⟨n, h1, h2⟩ := skip_list ps h
    refine ⟨n + 2, by simp only [List.length_cons, List.length_append, List.length_nil]; omega, ?_⟩
    intro f level tail hl
    have e1 : f + (n + 2) = (f + 1 + n) + 1 := by omega
    rw [e1, skipLoop_of_step (l' := level + 1) (r := ps.flatMap (·.1) ++ (tARRAY_END :: tail))]
    · rw [skipCont, if_pos (by omega), h2 _ _ _ (by omega), skipLoop_of_step (l' := level) (r := tail)]
      simp only [skipStep, peek, bind, Except.bind, show clsOf tARRAY_END = .arrEnd by decide]
      simp
    · simp only [List.cons_append, skipStep, peek, bind, Except.bind, show clsOf tARRAY = .arr by decide]
      simp

theorem doc_obj (qs : List Fld) (h : ∀ q ∈ qs, FldOk q) :
    Doc (tOBJ :: (fldBytes qs ++ [tOBJ_END])) (.obj (qs.map fun q => (q.1.2, q.2.2))) where
  head := ⟨_, _, rfl, by decide, by decide⟩
  dec := by
    intro fuel tail hf
    obtain ⟨f, rfl⟩ : ∃ f, fuel = f + 1 := ⟨fuel - 1, by simp at hf; omega⟩
    have := doc_fields qs h f tail (by simp only [List.length_cons, List.length_append] at hf; omega)
    simp only [List.cons_append, List.append_assoc, List.nil_append]
    simp only [Json.dec, peek, bind, Except.bind, show clsOf tOBJ = .obj by decide, readObj, if_true, this]
  skip := by
    obtain ⟨n, h1, h2⟩ := skip_fields qs h
    refine ⟨n + 2, by simp only [List.length_cons, List.length_append, List.length_nil]; omega, ?_⟩
    intro f level tail hl
    have e1 : f + (n + 2) = (f + 1 + n) + 1 := by omega
    rw [e1, skipLoop_of_step (l' := level + 1) (r := fldBytes qs ++ (tOBJ_END :: tail))]
    · rw [skipCont, if_pos (by omega), h2 _ _ _ (by omega), skipLoop_of_step (l' := level) (r := tail)]
      simp only [skipStep, peek, bind, Except.bind, show clsOf tOBJ_END = .objEnd by decide]
      simp
    · simp only [List.cons_append, skipStep, peek, bind, Except.bind, show clsOf tOBJ = .obj by decide]
      simp

/-! ## lengths -/

/-- what the parser needs of strtod: a 64-bit pattern, and it does not go backwards -/
def LibcOk (L : Libc) : Prop := ∀ s bits rest, L.strtod s = some (bits, rest) → bits < 2 ^ 64 ∧ rest <:+ s

theorem next_le : ∀ (bs r : Bytes), next bs = .ok r → r.length ≤ bs.length
  | [], r, h => by simp [next] at h
  | c :: t, r, h => by
    simp only [next] at h
    split at h
    · have := next_le t r h; simp; omega
    · cases h; simp

theorem utf8Next_lt (bs r : Bytes) (h : utf8Next bs = some r) : r.length < bs.length := by
  unfold utf8Next at h
  split at h
  · cases h
  · split at h
    · cases h; simp
    all_goals (repeat' (split at h)) <;> first | (cases h; done) | skip
    all_goals simp_all
    all_goals (first | omega | skip)

theorem stringLoop_le (q : Nat) : ∀ (fuel : Nat) (slash : Bool) (acc : Bytes) (esc : Bool) (bs raw rest : Bytes) (esc' : Bool),
    stringLoop q fuel slash acc esc bs = .ok (raw, rest, esc') → raw.length + rest.length ≤ acc.length + bs.length
  | 0, _, _, _, _, _, _, _, h => by simp [stringLoop] at h
  | fuel + 1, slash, acc, esc, bs, raw, rest, esc', h => by
    cases bs with
    | nil => simp [stringLoop] at h
    | cons c r =>
      simp only [stringLoop] at h
      by_cases h1 : c = q ∧ slash = false
      · rw [if_pos h1] at h; cases h; simp
      · rw [if_neg h1] at h
        by_cases h2 : c = q
        · rw [if_pos h2] at h
          have := stringLoop_le q fuel _ _ _ _ _ _ _ h
          simp at this ⊢; omega
        · rw [if_neg h2] at h
          by_cases h3 : c = 10
          · rw [if_pos h3] at h; cases h
          · rw [if_neg h3] at h
            cases hu : utf8Next (c :: r) with
            | none => rw [hu] at h; cases h
            | some r' =>
              rw [hu] at h
              have := stringLoop_le q fuel _ _ _ _ _ _ _ h
              have h4 := utf8Next_lt _ _ hu
              simp only [List.length_append, List.length_take, List.length_cons] at this h4 ⊢; omega

theorem unescape_le : ∀ (bs : Bytes) (slash : Bool) (r : Bytes), unescape slash bs = .ok r → r.length ≤ bs.length
  | [], slash, r, h => by simp [unescape] at h; subst h; simp
  | c :: t, slash, r, h => by
    simp only [unescape] at h
    by_cases h1 : c = 92 ∧ slash = false
    · rw [if_pos h1] at h
      have := unescape_le t _ _ h; simp; omega
    · rw [if_neg h1] at h
      by_cases h2 : slash = false
      · rw [if_pos h2] at h
        cases hu : unescape false t with
        | error e => rw [hu] at h; cases h
        | ok r' => rw [hu] at h; cases h; have := unescape_le t _ _ hu; simp; omega
      · rw [if_neg h2] at h
        cases hc : unescapeChar c with
        | none => rw [hc] at h; cases h
        | some x =>
          rw [hc] at h
          cases hu : unescape false t with
          | error e => rw [hu] at h; cases h
          | ok r' => rw [hu] at h; cases h; have := unescape_le t _ _ hu; simp; omega

theorem stringRead_le (bs raw rest : Bytes) (esc : Bool) (h : stringRead bs = .ok (raw, rest, esc)) :
    raw.length + rest.length < bs.length := by
  cases bs with
  | nil => simp [stringRead] at h
  | cons q r =>
    simp only [stringRead] at h
    have := stringLoop_le _ _ _ _ _ _ _ _ _ h
    simp at this ⊢; omega

theorem encodeString_key (raw e : Bytes) (esc : Bool) (hl : raw.length < 2 ^ 31) (h : encodeString raw esc = .ok e) :
    ∃ k, KeyDoc e k := by
  unfold encodeString at h
  split at h
  · cases hu : unescape false raw with
    | error e => rw [hu] at h; cases h
    | ok s =>
      rw [hu] at h; cases h
      exact ⟨s, key_str32 s (by have := unescape_le _ _ _ hu; omega)⟩
  · cases h; exact ⟨raw, key_raw raw hl⟩

theorem keyword_le : ∀ (ns bs r : Bytes), keyword ns bs = some r → r.length ≤ bs.length
  | [], bs, r, h => by simp [keyword] at h; subst h; simp
  | _ :: _, [], r, h => by simp [keyword] at h
  | n :: ns, c :: t, r, h => by
    simp only [keyword] at h
    by_cases h1 : (if 65 ≤ c ∧ c ≤ 90 then c + 32 else c) = n
    · rw [if_pos h1] at h
      have := keyword_le ns t r h; simp; omega
    · rw [if_neg h1] at h; cases h

theorem digitLoop_le : ∀ (bs : Bytes) (v : Nat) (w : Int) (r : Bytes), v ≤ 2 ^ 63 - 1 → digitLoop v bs = .int w r →
    r.length ≤ bs.length ∧ 0 ≤ w ∧ w ≤ 2 ^ 63 - 1
  | [], v, w, r, hv, h => by
    simp only [digitLoop] at h; cases h
    refine ⟨Nat.le_refl _, by omega, by omega⟩
  | c :: t, v, w, r, hv, h => by
    simp only [digitLoop] at h
    split at h
    · cases h
    · split at h
      · cases h; refine ⟨Nat.le_refl _, by omega, by omega⟩
      · split at h
        · cases h
        · rename_i h1
          have := digitLoop_le t _ w r (by omega) h
          simp; omega

theorem number_doc (L : Libc) (hL : LibcOk L) (bs e rest : Bytes) (h : number L bs = .ok (e, rest)) :
    rest.length ≤ bs.length ∧ ∃ v, Doc e v := by
  have hs : (if isMinus bs = true then bs.drop 1 else bs).length ≤ bs.length := by split <;> simp
  unfold number at h
  simp only at h
  generalize hst : (if isMinus bs = true then bs.drop 1 else bs) = start at h hs
  cases hd : digitLoop 0 start with
  | err => rw [hd] at h; cases h
  | int v r =>
    rw [hd] at h
    cases h
    obtain ⟨h1, h2, h3⟩ := digitLoop_le _ _ _ _ (by decide) hd
    exact ⟨by omega, _, doc_int _ (by split <;> omega) (by split <;> omega)⟩
  | real =>
    rw [hd] at h
    simp only at h
    cases ht : L.strtod start with
    | none => rw [ht] at h; cases h
    | some p =>
      obtain ⟨bits, r⟩ := p
      rw [ht] at h
      cases h
      obtain ⟨h1, h2⟩ := hL _ _ _ ht
      have h2 := h2.length_le
      exact ⟨by omega, _, doc_real _ (by split <;> omega)⟩

theorem const_doc (L : Libc) (hL : LibcOk L) (bs e rest : Bytes) (hb : bs.length < 2 ^ 31) (h : const L bs = .ok (e, rest)) :
    rest.length ≤ bs.length ∧ ∃ v, Doc e v := by
  cases bs with
  | nil => simp [const] at h
  | cons c r =>
    unfold const at h
    simp only at h
    by_cases h1 : c = 34 ∨ c = 39
    · rw [if_pos h1] at h
      cases hr : stringRead (c :: r) with
      | error x => rw [hr] at h; cases h
      | ok p =>
        obtain ⟨raw, rst, esc⟩ := p
        rw [hr] at h
        simp only [bind, Except.bind] at h
        have h2 := stringRead_le _ _ _ _ hr
        cases he : encodeString raw esc with
        | error x => rw [he] at h; cases h
        | ok e' =>
          rw [he] at h
          cases h
          obtain ⟨k, hk⟩ := encodeString_key raw e esc (by omega) he
          exact ⟨by omega, _, hk.doc⟩
    · rw [if_neg h1] at h
      by_cases h2 : c = 110 ∨ c = 78
      · rw [if_pos h2] at h
        cases hk : keyword [110, 117, 108, 108] (c :: r) with
        | none => rw [hk] at h; cases h
        | some r' => rw [hk] at h; cases h; exact ⟨keyword_le _ _ _ hk, _, doc_null⟩
      · rw [if_neg h2] at h
        by_cases h3 : c = 116 ∨ c = 84
        · rw [if_pos h3] at h
          cases hk : keyword [116, 114, 117, 101] (c :: r) with
          | none => rw [hk] at h; cases h
          | some r' => rw [hk] at h; cases h; exact ⟨keyword_le _ _ _ hk, _, doc_bool true⟩
        · rw [if_neg h3] at h
          by_cases h4 : c = 102 ∨ c = 70
          · rw [if_pos h4] at h
            cases hk : keyword [102, 97, 108, 115, 101] (c :: r) with
            | none => rw [hk] at h; cases h
            | some r' => rw [hk] at h; cases h; exact ⟨keyword_le _ _ _ hk, _, doc_bool false⟩
          · rw [if_neg h4] at h
            split at h
            · exact number_doc L hL _ _ _ h
            · cases h

/-! ## the stack -/

/-- the states below a value that is being read, and the document written so far -/
inductive Ctx : List St → Bytes → Prop
  | top : Ctx [] []
  | arr {stk : List St} {out : Bytes} (ps : List (Bytes × J)) (h : Ctx stk out) (hd : ∀ p ∈ ps, Doc p.1 p.2) :
      Ctx (.arrayNext :: stk) (out ++ tARRAY :: ps.flatMap (·.1))
  | obj {stk : List St} {out : Bytes} (qs : List Fld) (ke k : Bytes) (h : Ctx stk out) (hd : ∀ q ∈ qs, FldOk q)
      (hk : KeyDoc ke k) : Ctx (.mapNext :: stk) (out ++ tOBJ :: (fldBytes qs ++ ke))

/-- the states of the parser -/
inductive PSt : List St → Bytes → Prop
  | want {stk : List St} {out : Bytes} (h : Ctx stk out) : PSt (.value :: stk) out
  | have_ {stk : List St} {out e : Bytes} {v : J} (h : Ctx stk out) (hd : Doc e v) : PSt stk (out ++ e)
  | key {stk : List St} {out : Bytes} (qs : List Fld) (h : Ctx stk out) (hd : ∀ q ∈ qs, FldOk q) :
      PSt (.mapKey :: stk) (out ++ tOBJ :: fldBytes qs)

theorem step_sound (L : Libc) (hL : LibcOk L) (s : St) (stk stk' : List St) (bs bs' out e : Bytes) (hb : bs.length < 2 ^ 31)
    (hp : PSt (s :: stk) out) (h : parseStep L s stk bs = .ok (stk', bs', e)) :
    bs'.length ≤ bs.length ∧ PSt stk' (out ++ e) := by
  unfold parseStep at h
  cases hn : next bs with
  | error x => rw [hn] at h; cases h
  | ok b =>
    rw [hn] at h
    simp only [bind, Except.bind] at h
    have hle := next_le _ _ hn
    cases b with
    | nil => cases h
    | cons c r =>
      simp only [List.length_cons] at hle
      cases s with
      | value =>
        cases hp with
        | have_ hc hd => cases hc
        | want hc =>
          simp only at h
          by_cases h1 : c = 91
          · rw [if_pos h1] at h
            cases hn2 : next r with
            | error x => rw [hn2] at h; cases h
            | ok r2 =>
              rw [hn2] at h
              have hle2 := next_le _ _ hn2
              simp only at h
              split at h
              · rename_i r' 
                cases h
                simp at hle2
                exact ⟨by omega, .have_ hc (doc_arr [] (by simp))⟩
              · cases h
                exact ⟨by omega, by simpa using PSt.want (Ctx.arr [] hc (by simp))⟩
          · rw [if_neg h1] at h
            by_cases h2 : c = 123
            · rw [if_pos h2] at h
              cases hn2 : next r with
              | error x => rw [hn2] at h; cases h
              | ok r2 =>
                rw [hn2] at h
                have hle2 := next_le _ _ hn2
                simp only at h
                split at h
                · cases h
                  simp at hle2
                  exact ⟨by omega, .have_ hc (doc_obj [] (by simp))⟩
                · cases h
                  exact ⟨by omega, by simpa [fldBytes] using PSt.key [] hc (by simp)⟩
            · rw [if_neg h2] at h
              cases hk : const L (c :: r) with
              | error x => rw [hk] at h; cases h
              | ok p =>
                obtain ⟨e1, rest⟩ := p
                rw [hk] at h
                cases h
                obtain ⟨h3, v, h4⟩ := const_doc L hL _ _ _ (by simp; omega) hk
                simp at h3
                exact ⟨by simp only; omega, .have_ hc h4⟩
      | arrayNext =>
        cases hp with
        | @have_ _ out0 e0 v hc hd =>
          cases hc with
          | @arr stk1 out1 ps hc' hps =>
            have hps' : ∀ p ∈ ps ++ [(e0, v)], Doc p.1 p.2 := by
              intro p hp
              rcases List.mem_append.1 hp with hp | hp
              · exact hps p hp
              · simp at hp; subst hp; exact hd
            simp only at h
            by_cases h1 : c = 44
            · rw [if_pos h1] at h
              cases h
              refine ⟨by omega, ?_⟩
              have := PSt.want (Ctx.arr (ps ++ [(e0, v)]) hc' hps')
              simpa using this
            · rw [if_neg h1] at h
              by_cases h2 : c = 93
              · rw [if_pos h2] at h
                cases h
                refine ⟨by omega, ?_⟩
                have := PSt.have_ hc' (doc_arr _ hps')
                simpa using this
              · rw [if_neg h2] at h; cases h
      | mapKey =>
        cases hp with
        | have_ hc hd => cases hc
        | @key _ out0 qs hc hqs =>
          simp only at h
          by_cases h1 : c ≠ 34 ∧ c ≠ 39
          · rw [if_pos h1] at h; cases h
          · rw [if_neg h1] at h
            cases hr : stringRead (c :: r) with
            | error x => rw [hr] at h; cases h
            | ok p =>
              obtain ⟨raw, rst, esc⟩ := p
              rw [hr] at h
              simp only at h
              have h2 := stringRead_le _ _ _ _ hr
              simp at h2
              cases he : encodeString raw esc with
              | error x => rw [he] at h; cases h
              | ok e' =>
                rw [he] at h
                simp only at h
                obtain ⟨k, hk⟩ := encodeString_key raw e' esc (by omega) he
                cases hn2 : next rst with
                | error x => rw [hn2] at h; cases h
                | ok r2 =>
                  rw [hn2] at h
                  have hle2 := next_le _ _ hn2
                  simp only at h
                  split at h
                  · cases h
                    simp at hle2
                    refine ⟨by omega, ?_⟩
                    have := PSt.want (Ctx.obj qs _ k hc hqs hk)
                    simpa using this
                  · cases h
      | mapNext =>
        cases hp with
        | @have_ _ out0 e0 v hc hd =>
          cases hc with
          | @obj stk1 out1 qs ke k hc' hqs hk =>
            have hqs' : ∀ q ∈ qs ++ [((ke, k), (e0, v))], FldOk q := by
              intro p hp
              rcases List.mem_append.1 hp with hp | hp
              · exact hqs p hp
              · simp at hp; subst hp; exact ⟨hk, hd⟩
            have e1 : fldBytes (qs ++ [((ke, k), (e0, v))]) = fldBytes qs ++ ke ++ e0 := by simp [fldBytes]
            simp only at h
            by_cases h1 : c = 44
            · rw [if_pos h1] at h
              cases h
              refine ⟨by omega, ?_⟩
              have := PSt.key _ hc' hqs'
              rw [e1] at this
              simpa using this
            · rw [if_neg h1] at h
              by_cases h2 : c = 125
              · rw [if_pos h2] at h
                cases h
                refine ⟨by omega, ?_⟩
                have := PSt.have_ hc' (doc_obj _ hqs')
                rw [e1] at this
                simpa using this
              · rw [if_neg h2] at h; cases h

theorem loop_sound (L : Libc) (hL : LibcOk L) : ∀ (fuel : Nat) (stk : List St) (bs out rest doc : Bytes), bs.length < 2 ^ 31 →
    PSt stk out → parseLoop L fuel stk bs out = .ok (rest, doc) → ∃ v, Doc doc v
  | fuel, [], bs, out, rest, doc, hb, hp, h => by
    have : parseLoop L fuel [] bs out = .ok (bs, out) := by cases fuel <;> rfl
    rw [this] at h
    cases h
    cases hp with
    | @have_ _ out e v hc hd => cases hc; exact ⟨v, by simpa using hd⟩
  | 0, _ :: _, bs, out, rest, doc, hb, hp, h => by simp [parseLoop] at h
  | fuel + 1, s :: stk, bs, out, rest, doc, hb, hp, h => by
    simp only [parseLoop] at h
    cases hs : parseStep L s stk bs with
    | error x => rw [hs] at h; cases h
    | ok p =>
      obtain ⟨stk', bs', e⟩ := p
      rw [hs] at h
      obtain ⟨h1, h2⟩ := step_sound L hL _ _ _ _ _ _ _ hb hp hs
      exact loop_sound L hL fuel stk' bs' _ rest doc (by omega) h2 h

theorem parse_doc (L : Libc) (hL : LibcOk L) (text rest doc : Bytes) (hb : text.length < 2 ^ 31)
    (h : parse L text = .ok (rest, doc)) : ∃ v, Doc doc v :=
  loop_sound L hL _ _ _ _ _ _ hb (.want .top) h

/-! ## the parser never runs out of its text -/

theorem ne_ub_bind {α β : Type} {x : Res α} {f : α → Res β} (h1 : x ≠ .error .ub) (h2 : ∀ a, x = .ok a → f a ≠ .error .ub) :
    (x >>= f) ≠ .error .ub := by
  cases x with
  | error e => intro h; apply h1; cases h; rfl
  | ok a => exact h2 a rfl

theorem next_safe : ∀ (bs : Bytes), next bs ≠ .error .ub
  | [] => by simp [next]
  | c :: t => by
    simp only [next]; split
    · exact next_safe t
    · simp

theorem next_suffix : ∀ (bs r : Bytes), next bs = .ok r → r <:+ bs ∧ r ≠ []
  | [], r, h => by simp [next] at h
  | c :: t, r, h => by
    simp only [next] at h
    split at h
    · obtain ⟨h1, h2⟩ := next_suffix t r h
      exact ⟨h1.trans (List.suffix_cons c t), h2⟩
    · cases h; exact ⟨List.suffix_refl _, by simp⟩

theorem utf8Next_suffix (bs r : Bytes) (h : utf8Next bs = some r) : r <:+ bs := by
  unfold utf8Next at h
  split at h
  · cases h
  · split at h
    · cases h; exact List.suffix_cons _ _
    all_goals (repeat' (split at h)) <;> first | (cases h; done) | skip
    · cases h; exact ⟨[_, _], rfl⟩
    · cases h; exact ⟨[_, _, _], rfl⟩
    · cases h; exact ⟨[_, _, _, _], rfl⟩

theorem take_suffix {bs r : Bytes} (h : r <:+ bs) : bs.take (bs.length - r.length) ++ r = bs := by
  obtain ⟨p, rfl⟩ := h
  have : (p ++ r).length - r.length = p.length := by simp
  rw [this, List.take_append_of_le_length (Nat.le_refl _), List.take_length]

theorem stringLoop_safe (q : Nat) : ∀ (fuel : Nat) (slash : Bool) (acc : Bytes) (esc : Bool) (bs : Bytes), bs.length < fuel →
    stringLoop q fuel slash acc esc bs ≠ .error .ub ∧ ∀ raw rest esc', stringLoop q fuel slash acc esc bs = .ok (raw, rest, esc') →
      ∃ mid, acc ++ bs = raw ++ mid ++ rest
  | 0, _, _, _, _, h => by omega
  | fuel + 1, slash, acc, esc, bs, hf => by
    cases bs with
    | nil => simp [stringLoop]
    | cons c r =>
      simp only [List.length_cons] at hf
      simp only [stringLoop]
      by_cases h1 : c = q ∧ slash = false
      · rw [if_pos h1]
        refine ⟨by simp, ?_⟩
        intro raw rest esc' h; cases h
        exact ⟨[c], by simp⟩
      · rw [if_neg h1]
        by_cases h2 : c = q
        · rw [if_pos h2]
          obtain ⟨h3, h4⟩ := stringLoop_safe q fuel false (acc ++ [c]) esc r (by omega)
          refine ⟨h3, ?_⟩
          intro raw rest esc' h
          obtain ⟨mid, hm⟩ := h4 raw rest esc' h
          exact ⟨mid, by simpa using hm⟩
        · rw [if_neg h2]
          by_cases h3 : c = 10
          · rw [if_pos h3]; simp
          · rw [if_neg h3]
            cases hu : utf8Next (c :: r) with
            | none => simp
            | some r' =>
              have h5 := utf8Next_lt _ _ hu
              have h6 := utf8Next_suffix _ _ hu
              simp only
              obtain ⟨h7, h8⟩ := stringLoop_safe q fuel (if c = 92 then !slash else false)
                (acc ++ (c :: r).take ((c :: r).length - r'.length)) (if c = 92 then true else esc) r' (by simp at h5; omega)
              refine ⟨h7, ?_⟩
              intro raw rest esc' h
              obtain ⟨mid, hm⟩ := h8 raw rest esc' h
              refine ⟨mid, ?_⟩
              rw [← hm, List.append_assoc, take_suffix h6]

/-- every backslash is followed by a letter the parser knows -/
def EscOk (text : Bytes) : Prop := ∀ pre c t, text = pre ++ 92 :: c :: t → unescapeChar c ≠ none

theorem EscOk.infix {text a b c : Bytes} (h : EscOk text) (he : text = a ++ b ++ c) : EscOk b := by
  intro pre x t hb
  exact h (a ++ pre) x (t ++ c) (by rw [he, hb]; simp)

theorem EscOk.suffix {text s : Bytes} (h : EscOk text) (he : s <:+ text) : EscOk s := by
  obtain ⟨p, rfl⟩ := he
  exact h.infix (a := p) (c := []) (by simp)

theorem unescape_safe : ∀ (bs : Bytes) (slash : Bool), EscOk (if slash then 92 :: bs else bs) → unescape slash bs ≠ .error .ub
  | [], slash, _ => by simp [unescape]
  | c :: t, slash, h => by
    have ht : EscOk t := by
      refine EscOk.suffix h ?_
      cases slash with
      | false => exact List.suffix_cons c t
      | true => exact ⟨[92, c], rfl⟩
    simp only [unescape]
    by_cases h1 : c = 92 ∧ slash = false
    · rw [if_pos h1]
      apply unescape_safe
      rw [h1.2] at h
      rw [← h1.1]; exact h
    · rw [if_neg h1]
      by_cases h2 : slash = false
      · rw [if_pos h2]
        exact ne_ub_bind (unescape_safe t false ht) (by simp)
      · rw [if_neg h2]
        cases slash with
        | false => exact absurd rfl h2
        | true =>
          cases hc : unescapeChar c with
          | none => exact absurd hc (h [] c t rfl)
          | some x =>
            simp only
            exact ne_ub_bind (unescape_safe t false ht) (by simp)

theorem stringRead_safe (bs : Bytes) (h : EscOk bs) (h0 : bs ≠ []) : stringRead bs ≠ .error .ub ∧
    ∀ raw rest esc, stringRead bs = .ok (raw, rest, esc) → EscOk raw ∧ rest <:+ bs ∧ rest.length < bs.length := by
  cases bs with
  | nil => exact absurd rfl h0
  | cons q r =>
    simp only [stringRead]
    obtain ⟨h1, h2⟩ := stringLoop_safe q (r.length + 1) false [] false r (by omega)
    refine ⟨h1, ?_⟩
    intro raw rest esc hs
    obtain ⟨mid, hm⟩ := h2 raw rest esc hs
    rw [List.nil_append] at hm
    refine ⟨h.infix (a := [q]) (c := mid ++ rest) (by rw [hm]; simp), ⟨q :: (raw ++ mid), by rw [hm]; simp⟩, ?_⟩
    rw [hm]; simp; omega

theorem encodeString_safe (raw : Bytes) (esc : Bool) (h : EscOk raw) : encodeString raw esc ≠ .error .ub := by
  unfold encodeString
  split
  · exact ne_ub_bind (unescape_safe raw false h) (by simp)
  · simp

theorem keyword_suffix : ∀ (ns bs r : Bytes), keyword ns bs = some r → r <:+ bs
  | [], bs, r, h => by simp [keyword] at h; subst h; exact List.suffix_refl _
  | _ :: _, [], r, h => by simp [keyword] at h
  | n :: ns, c :: t, r, h => by
    simp only [keyword] at h
    by_cases h1 : (if 65 ≤ c ∧ c ≤ 90 then c + 32 else c) = n
    · rw [if_pos h1] at h
      exact (keyword_suffix ns t r h).trans (List.suffix_cons c t)
    · rw [if_neg h1] at h; cases h

theorem digitLoop_suffix : ∀ (bs : Bytes) (v : Nat) (w : Int) (r : Bytes), digitLoop v bs = .int w r → r <:+ bs
  | [], v, w, r, h => by simp only [digitLoop] at h; cases h; exact List.suffix_refl _
  | c :: t, v, w, r, h => by
    simp only [digitLoop] at h
    split at h
    · cases h
    · split at h
      · cases h; exact List.suffix_refl _
      · split at h
        · cases h
        · exact (digitLoop_suffix t _ w r h).trans (List.suffix_cons c t)

theorem number_safe (L : Libc) (hL : LibcOk L) (bs : Bytes) : number L bs ≠ .error .ub ∧
    ∀ e rest, number L bs = .ok (e, rest) → rest <:+ bs := by
  have hs : (if isMinus bs = true then bs.drop 1 else bs) <:+ bs := by
    split
    · exact List.drop_suffix 1 bs
    · exact List.suffix_refl _
  unfold number
  simp only
  generalize (if isMinus bs = true then bs.drop 1 else bs) = start at hs
  cases hd : digitLoop 0 start with
  | err => simp
  | int v r =>
    refine ⟨by simp, ?_⟩
    intro e rest h; cases h
    exact (digitLoop_suffix _ _ _ _ hd).trans hs
  | real =>
    simp only
    cases ht : L.strtod start with
    | none => simp
    | some p =>
      obtain ⟨bits, r⟩ := p
      refine ⟨by simp, ?_⟩
      intro e rest h; cases h
      exact (hL _ _ _ ht).2.trans hs

theorem const_safe (L : Libc) (hL : LibcOk L) (bs : Bytes) (h0 : bs ≠ []) (h : EscOk bs) : const L bs ≠ .error .ub ∧
    ∀ e rest, const L bs = .ok (e, rest) → rest <:+ bs := by
  have hstr := stringRead_safe bs h h0
  have hnum := number_safe L hL bs
  cases bs with
  | nil => exact absurd rfl h0
  | cons c r =>
    unfold const
    simp only
    by_cases h1 : c = 34 ∨ c = 39
    · rw [if_pos h1]
      constructor
      · refine ne_ub_bind hstr.1 ?_
        intro p hp
        obtain ⟨raw, rest, esc⟩ := p
        exact ne_ub_bind (encodeString_safe raw esc (hstr.2 _ _ _ hp).1) (by simp)
      · intro e rest hk
        cases hr : stringRead (c :: r) with
        | error x => rw [hr] at hk; cases hk
        | ok p =>
          obtain ⟨raw, rst, esc⟩ := p
          rw [hr] at hk
          simp only [bind, Except.bind] at hk
          cases he : encodeString raw esc with
          | error x => rw [he] at hk; cases hk
          | ok e' => rw [he] at hk; cases hk; exact (hstr.2 _ _ _ hr).2.1
    · rw [if_neg h1]
      by_cases h2 : c = 110 ∨ c = 78
      · rw [if_pos h2]
        cases hk : keyword [110, 117, 108, 108] (c :: r) with
        | none => simp
        | some r' => exact ⟨by simp, by intro e rest h; cases h; exact keyword_suffix _ _ _ hk⟩
      · rw [if_neg h2]
        by_cases h3 : c = 116 ∨ c = 84
        · rw [if_pos h3]
          cases hk : keyword [116, 114, 117, 101] (c :: r) with
          | none => simp
          | some r' => exact ⟨by simp, by intro e rest h; cases h; exact keyword_suffix _ _ _ hk⟩
        · rw [if_neg h3]
          by_cases h4 : c = 102 ∨ c = 70
          · rw [if_pos h4]
            cases hk : keyword [102, 97, 108, 115, 101] (c :: r) with
            | none => simp
            | some r' => exact ⟨by simp, by intro e rest h; cases h; exact keyword_suffix _ _ _ hk⟩
          · rw [if_neg h4]
            split
            · exact hnum
            · simp

theorem step_safe (L : Libc) (hL : LibcOk L) (s : St) (stk : List St) (bs : Bytes) (h : EscOk bs) :
    parseStep L s stk bs ≠ .error .ub ∧ ∀ stk' bs' e, parseStep L s stk bs = .ok (stk', bs', e) →
      bs' <:+ bs ∧ 2 * bs'.length + stk'.length < 2 * bs.length + (stk.length + 1) := by
  unfold parseStep
  cases hn : next bs with
  | error x =>
    refine ⟨?_, by intro a b c h; cases h⟩
    have := next_safe bs
    rw [hn] at this
    intro h; apply this; cases h; rfl
  | ok b =>
    obtain ⟨hsuf, hne⟩ := next_suffix _ _ hn
    have hle := hsuf.length_le
    simp only [bind, Except.bind]
    cases b with
    | nil => exact absurd rfl hne
    | cons c r =>
      have hb := h.suffix hsuf
      have hr : r <:+ bs := (List.suffix_cons c r).trans hsuf
      simp only [List.length_cons] at hle
      cases s with
      | value =>
        simp only
        by_cases h1 : c = 91
        · rw [if_pos h1]
          cases hn2 : next r with
          | error x =>
            refine ⟨?_, by intro a b c h; cases h⟩
            have := next_safe r
            rw [hn2] at this
            intro h; apply this; cases h; rfl
          | ok r2 =>
            obtain ⟨hs2, _⟩ := next_suffix _ _ hn2
            have hle2 := hs2.length_le
            simp only
            split
            · rename_i r'
              refine ⟨by simp, ?_⟩
              intro a b c h; cases h
              simp at hle2
              exact ⟨((List.suffix_cons _ _).trans hs2).trans hr, by omega⟩
            · refine ⟨by simp, ?_⟩
              intro a b c h; cases h
              exact ⟨hs2.trans hr, by simp only [List.length_cons]; omega⟩
        · rw [if_neg h1]
          by_cases h2 : c = 123
          · rw [if_pos h2]
            cases hn2 : next r with
            | error x =>
              refine ⟨?_, by intro a b c h; cases h⟩
              have := next_safe r
              rw [hn2] at this
              intro h; apply this; cases h; rfl
            | ok r2 =>
              obtain ⟨hs2, _⟩ := next_suffix _ _ hn2
              have hle2 := hs2.length_le
              simp only
              split
              · rename_i r'
                refine ⟨by simp, ?_⟩
                intro a b c h; cases h
                simp at hle2
                exact ⟨((List.suffix_cons _ _).trans hs2).trans hr, by omega⟩
              · refine ⟨by simp, ?_⟩
                intro a b c h; cases h
                exact ⟨hs2.trans hr, by simp only [List.length_cons]; omega⟩
          · rw [if_neg h2]
            obtain ⟨hc1, hc2⟩ := const_safe L hL (c :: r) (by simp) hb
            cases hk : const L (c :: r) with
            | error x =>
              refine ⟨?_, by intro a b c h; cases h⟩
              rw [hk] at hc1
              intro h; apply hc1; cases h; rfl
            | ok p =>
              obtain ⟨e1, rest⟩ := p
              refine ⟨by simp, ?_⟩
              intro a b c h; cases h
              have h3 := (hc2 _ _ hk)
              have h4 := h3.length_le
              simp only [List.length_cons] at h4
              exact ⟨h3.trans hsuf, by simp only; omega⟩
      | arrayNext =>
        simp only
        by_cases h1 : c = 44
        · rw [if_pos h1]
          refine ⟨by simp, ?_⟩
          intro a b c h; cases h
          exact ⟨hr, by simp only [List.length_cons]; omega⟩
        · rw [if_neg h1]
          by_cases h2 : c = 93
          · rw [if_pos h2]
            refine ⟨by simp, ?_⟩
            intro a b c h; cases h
            exact ⟨hr, by omega⟩
          · rw [if_neg h2]; simp
      | mapKey =>
        simp only
        by_cases h1 : c ≠ 34 ∧ c ≠ 39
        · rw [if_pos h1]; simp
        · rw [if_neg h1]
          obtain ⟨hc1, hc2⟩ := stringRead_safe (c :: r) hb (by simp)
          cases hk : stringRead (c :: r) with
          | error x =>
            refine ⟨?_, by intro a b c h; cases h⟩
            rw [hk] at hc1
            intro h; apply hc1; cases h; rfl
          | ok p =>
            obtain ⟨raw, rst, esc⟩ := p
            obtain ⟨h3, h4, h5⟩ := hc2 _ _ _ hk
            simp only
            cases he : encodeString raw esc with
            | error x =>
              refine ⟨?_, by intro a b c h; cases h⟩
              have := encodeString_safe raw esc h3
              rw [he] at this
              intro h; apply this; cases h; rfl
            | ok e' =>
              simp only
              cases hn2 : next rst with
              | error x =>
                refine ⟨?_, by intro a b c h; cases h⟩
                have := next_safe rst
                rw [hn2] at this
                intro h; apply this; cases h; rfl
              | ok r2 =>
                obtain ⟨hs2, _⟩ := next_suffix _ _ hn2
                have hle2 := hs2.length_le
                simp only
                split
                · rename_i r'
                  refine ⟨by simp, ?_⟩
                  intro a b c h; cases h
                  simp only [List.length_cons] at hle2 h5
                  exact ⟨((List.suffix_cons _ _).trans hs2).trans (h4.trans hsuf), by simp only [List.length_cons]; omega⟩
                · simp
      | mapNext =>
        simp only
        by_cases h1 : c = 44
        · rw [if_pos h1]
          refine ⟨by simp, ?_⟩
          intro a b c h; cases h
          exact ⟨hr, by simp only [List.length_cons]; omega⟩
        · rw [if_neg h1]
          by_cases h2 : c = 125
          · rw [if_pos h2]
            refine ⟨by simp, ?_⟩
            intro a b c h; cases h
            exact ⟨hr, by omega⟩
          · rw [if_neg h2]; simp

theorem loop_safe (L : Libc) (hL : LibcOk L) : ∀ (fuel : Nat) (stk : List St) (bs out : Bytes), EscOk bs →
    2 * bs.length + stk.length < fuel → parseLoop L fuel stk bs out ≠ .error .ub ∧
      ∀ rest doc, parseLoop L fuel stk bs out = .ok (rest, doc) → rest <:+ bs
  | fuel, [], bs, out, h, hf => by
    have : parseLoop L fuel [] bs out = .ok (bs, out) := by cases fuel <;> rfl
    rw [this]
    refine ⟨by simp, ?_⟩
    intro rest doc h; cases h; exact List.suffix_refl _
  | 0, _ :: _, bs, out, h, hf => by omega
  | fuel + 1, s :: stk, bs, out, h, hf => by
    obtain ⟨h1, h2⟩ := step_safe L hL s stk bs h
    simp only [parseLoop]
    cases hs : parseStep L s stk bs with
    | error x =>
      refine ⟨?_, by intro a b h; cases h⟩
      rw [hs] at h1
      intro h; apply h1; cases h; rfl
    | ok p =>
      obtain ⟨stk', bs', e⟩ := p
      obtain ⟨h3, h4⟩ := h2 _ _ _ hs
      obtain ⟨h5, h6⟩ := loop_safe L hL fuel stk' bs' (out ++ e) (h.suffix h3) (by simp only [List.length_cons] at hf; omega)
      exact ⟨h5, fun rest doc h => (h6 rest doc h).trans h3⟩

end Verif.Json.Text
