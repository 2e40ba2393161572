import Verif.Config.Spec
import Verif.Catalog.PropsFile
/-!
# Proofs about options and their text
-/
set_option autoImplicit false
set_option linter.unusedSimpArgs false
set_option linter.unusedVariables false
namespace Verif.Config
open Verif Verif.Json Verif.Json.Text
open Verif.Catalog (lit utf8_bytes textOK_wf skip_encP)

/-! ## printing what can be read -/

theorem exp_of_dec (L : Libc) (p : Bool) : ∀ f : Nat,
    (∀ bs v r deep, dec f bs = .ok (v, r) → exportAs L p f deep bs = .ok (textOf L p deep v, r)) ∧
    (∀ bs l r deep, decList f bs = .ok (l, r) → exportList L p f deep bs = .ok (textList L p deep l, r)) ∧
    (∀ bs l r deep, decFields f bs = .ok (l, r) → exportFields L p f deep bs = .ok (textFields L p deep l, r)) := by
  intro f
  induction f with
  | zero => refine ⟨?_, ?_, ?_⟩ <;> intro bs v r deep h <;> simp [dec, decList, decFields] at h
  | succ f ih =>
    obtain ⟨ih1, ih2, ih3⟩ := ih
    refine ⟨?_, ?_, ?_⟩
    · intro bs v r deep h
      simp only [dec, bind, Except.bind] at h
      simp only [exportAs, bind, Except.bind]
      cases hp : peek bs with
      | error e => rw [hp] at h; cases h
      | ok t =>
        rw [hp] at h
        simp only at h ⊢
        cases hc : clsOf t <;> rw [hc] at h <;> simp only at h ⊢
        · cases hx : readNull bs with
          | error e => rw [hx] at h; cases h
          | ok q => rw [hx] at h; cases h; rfl
        · cases hx : readBool bs with
          | error e => rw [hx] at h; cases h
          | ok q => rw [hx] at h; cases h; rfl
        · cases hx : readReal bs with
          | error e => rw [hx] at h; cases h
          | ok q => rw [hx] at h; cases h; rfl
        · cases hx : readInteger bs with
          | error e => rw [hx] at h; cases h
          | ok q => rw [hx] at h; cases h; rfl
        · cases hx : readRaw bs with
          | error e => rw [hx] at h; cases h
          | ok q => rw [hx] at h; cases h; rfl
        · cases hx : readObj bs with
          | error e => rw [hx] at h; cases h
          | ok q =>
            rw [hx] at h
            simp only at h ⊢
            cases hl : decFields f q with
            | error e => rw [hl] at h; cases h
            | ok y =>
              rw [hl] at h
              simp only at h
              cases h
              have h3 := ih3 q y.1 y.2 deep hl
              cases p with
              | false => simp only [h3, if_false, Bool.false_eq_true, textOf]
              | true =>
                cases f with
                | zero => simp [decFields] at hl
                | succ n =>
                  simp only [if_true, textOf]
                  simp only [decFields, bind, Except.bind] at hl
                  cases he : readObjEnd q with
                  | error e => rw [he] at hl; cases hl
                  | ok o =>
                    rw [he] at hl
                    cases o with
                    | some r' => simp only at hl ⊢; cases hl; rfl
                    | none =>
                      simp only at hl ⊢
                      have hne : y.1.isEmpty = false := by
                        cases h1 : readRaw q with
                        | error e => rw [h1] at hl; cases hl
                        | ok kq =>
                          rw [h1] at hl
                          simp only at hl
                          cases h2 : dec n kq.2 with
                          | error e => rw [h2] at hl; cases hl
                          | ok vq =>
                            rw [h2] at hl
                            simp only at hl
                            cases h4 : decFields n vq.2 with
                            | error e => rw [h4] at hl; cases hl
                            | ok lq => rw [h4] at hl; cases hl; rfl
                      rw [h3]
                      simp only [hne, Bool.false_eq_true, if_false]
        · cases h
        · cases hx : readArray bs with
          | error e => rw [hx] at h; cases h
          | ok q =>
            rw [hx] at h
            simp only at h ⊢
            cases hl : decList f q with
            | error e => rw [hl] at h; cases h
            | ok y =>
              rw [hl] at h
              simp only at h
              cases h
              rw [ih2 q y.1 y.2 deep hl]
              rfl
        · cases h
        · cases h
    · intro bs l r deep h
      simp only [decList, bind, Except.bind] at h
      simp only [exportList, bind, Except.bind]
      cases he : readArrayEnd bs with
      | error e => rw [he] at h; cases h
      | ok o =>
        rw [he] at h
        cases o with
        | some r' => simp only at h ⊢; cases h; rfl
        | none =>
          simp only at h ⊢
          cases h2 : dec f bs with
          | error e => rw [h2] at h; cases h
          | ok vq =>
            rw [h2] at h
            simp only at h
            cases h4 : decList f vq.2 with
            | error e => rw [h4] at h; cases h
            | ok lq =>
              rw [h4] at h
              cases h
              rw [ih1 bs vq.1 vq.2 deep h2]
              simp only
              cases f with
              | zero => simp [decList] at h4
              | succ n =>
                have h5 := h4
                simp only [decList, bind, Except.bind] at h5
                cases hv : vq.2 with
                | nil => rw [hv] at h5; simp [readArrayEnd] at h5
                | cons t w =>
                  simp only [peek]
                  rw [← hv, ih2 vq.2 lq.1 lq.2 deep h4]
                  simp only [textList]
                  rw [hv] at h5
                  simp only [readArrayEnd] at h5
                  by_cases ht : t = tARRAY_END
                  · rw [if_pos ht] at h5
                    simp only at h5
                    cases h5
                    simp [ht]
                  · rw [if_neg ht] at h5
                    simp only at h5
                    have hne : lq.1.isEmpty = false := by
                      cases h6 : dec n (t :: w) with
                      | error e => rw [h6] at h5; cases h5
                      | ok a =>
                        rw [h6] at h5
                        simp only at h5
                        cases h7 : decList n a.2 with
                        | error e => rw [h7] at h5; cases h5
                        | ok b => rw [h7] at h5; cases h5; rfl
                    simp [ht, hne]
    · intro bs l r deep h
      simp only [decFields, bind, Except.bind] at h
      simp only [exportFields, bind, Except.bind]
      cases he : readObjEnd bs with
      | error e => rw [he] at h; cases h
      | ok o =>
        rw [he] at h
        cases o with
        | some r' => simp only at h ⊢; cases h; rfl
        | none =>
          simp only at h ⊢
          cases h1 : readRaw bs with
          | error e => rw [h1] at h; cases h
          | ok kq =>
            rw [h1] at h
            simp only at h
            cases h2 : dec f kq.2 with
            | error e => rw [h2] at h; cases h
            | ok vq =>
              rw [h2] at h
              simp only at h
              cases h4 : decFields f vq.2 with
              | error e => rw [h4] at h; cases h
              | ok lq =>
                rw [h4] at h
                cases h
                cases f with
                | zero => simp [decFields] at h4
                | succ n =>
                  have hk : exportAs L p (n + 1) (deep + 1) bs = .ok ([34] ++ escape kq.1 ++ [34], kq.2) := by
                    cases bs with
                    | nil => simp [readRaw] at h1
                    | cons t w =>
                      have hs : clsOf t = .str := by
                        by_cases a1 : tSTRINGV0 ≤ t ∧ t ≤ tSTRING32
                        · exact clsOf_str t a1
                        · exfalso
                          simp only [readRaw] at h1
                          rw [if_neg (by omega), if_neg (by omega), if_neg (by omega), if_neg (by omega)] at h1
                          cases h1
                      simp only [exportAs, peek, bind, Except.bind, hs, h1]
                  rw [hk]
                  simp only
                  rw [ih1 kq.2 vq.1 vq.2 (deep + 1) h2]
                  simp only
                  have h5 := h4
                  simp only [decFields, bind, Except.bind] at h5
                  cases hv : vq.2 with
                  | nil => rw [hv] at h5; simp [readObjEnd] at h5
                  | cons t w =>
                    simp only [peek]
                    rw [← hv, ih3 vq.2 lq.1 lq.2 deep h4]
                    simp only [textFields]
                    rw [hv] at h5
                    simp only [readObjEnd] at h5
                    by_cases ht : t = tOBJ_END
                    · rw [if_pos ht] at h5
                      simp only at h5
                      cases h5
                      simp [ht]
                    · rw [if_neg ht] at h5
                      simp only at h5
                      have hne : lq.1.isEmpty = false := by
                        cases h6 : readRaw (t :: w) with
                        | error e => rw [h6] at h5; cases h5
                        | ok c =>
                          rw [h6] at h5
                          simp only at h5
                          cases h7 : dec n c.2 with
                          | error e => rw [h7] at h5; cases h5
                          | ok a =>
                            rw [h7] at h5
                            simp only at h5
                            cases h8 : decFields n a.2 with
                            | error e => rw [h8] at h5; cases h5
                            | ok b => rw [h8] at h5; cases h5; rfl
                      simp [ht, hne]

/-! ## one option -/

theorem toSigned_toUnsigned {i : Int} (h : -(2 ^ 63) ≤ i ∧ i < 2 ^ 63) : toSigned 64 (toUnsigned 64 i) = i := by
  have e : ((i % 2 ^ 64).toNat : Int) = i % 2 ^ 64 := Int.toNat_of_nonneg (Int.emod_nonneg _ (by decide))
  show (if ((i % 2 ^ 64).toNat) < 2 ^ 63 then (((i % 2 ^ 64).toNat : Nat) : Int) else ((i % 2 ^ 64).toNat : Int) - 2 ^ 64) = i
  by_cases hc : (i % 2 ^ 64).toNat < 2 ^ 63
  · rw [if_pos hc]; omega
  · rw [if_neg hc]; omega

theorem toUnsigned_toSigned {n : Nat} (h : n < 2 ^ 64) : toUnsigned 64 (toSigned 64 n) = n := by
  simp only [toSigned, toUnsigned]
  split <;> omega

theorem writeInteger_signed {n : Nat} (h : n < 2 ^ 64) : writeInteger (n : Int) = writeInteger (toSigned 64 n) := by
  have e : toUnsigned 64 (n : Int) = toUnsigned 64 (toSigned 64 n) := by
    rw [toUnsigned_toSigned h]
    simp only [toUnsigned]; omega
  simp only [writeInteger, e]

theorem signed_ok {n : Nat} (h : n < 2 ^ 64) (h2 : n ≠ 2 ^ 63) : -(2 ^ 63) < toSigned 64 n ∧ toSigned 64 n < 2 ^ 63 := by
  simp only [toSigned]; split <;> omega

theorem enc_ne_nil (v : J) : enc v ≠ [] := by
  intro e; have := enc_length_pos v; rw [e] at this; simp at this
theorem encP_ne_nil (v : J) : encP v ≠ [] := by
  intro e; have := encP_length_pos v; rw [e] at this; simp at this

theorem decode_enc {v : J} (h : TextOK v) (r : Bytes) : decode (enc v ++ r) = .ok (v, r) := by
  have := dec_enc v (textOK_wf v h) ((enc v ++ r).length + 1) r (by simp; omega)
  rwa [stored_textOK v h] at this
theorem decode_encP {v : J} (h : TextOK v) (r : Bytes) : decode (encP v ++ r) = .ok (v, r) := by
  exact dec_encP v h ((encP v ++ r).length + 1) r (by simp; omega)

theorem value_json {o : Opt} {v : J} (ht : o.d.ty = .json) (h : TextOK v) (e : o.str = enc v ∨ o.str = encP v) : value o = v := by
  have h1 : decode o.str = .ok (v, []) := by
    rcases e with e | e
    · rw [e]; simpa using decode_enc h []
    · rw [e]; simpa using decode_encP h []
  have hn : o.str ≠ [] := by
    rcases e with e | e
    · rw [e]; exact enc_ne_nil v
    · rw [e]; exact encP_ne_nil v
  simp only [value, ht, if_neg hn, h1]

theorem value_ok {o : Opt} (h : Good o) : TextOK (value o) := by
  unfold Good at h
  cases ht : o.d.ty with
  | bool => simp only [value, ht, TextOK]
  | int => rw [ht] at h; simp only [value, ht, TextOK]; exact signed_ok h.1 h.2.1
  | str => rw [ht] at h; simp only [value, ht, TextOK]; exact h
  | json =>
    rw [ht] at h
    simp only at h
    rcases h with h | ⟨v, hv, e⟩
    · simp only [value, ht, h, if_true, TextOK]
    · rw [value_json ht hv e]; exact hv

theorem dec_encode {o : Opt} (h : Good o) (f : Nat) (hf : (encode o).length ≤ f) (r : Bytes) : dec f (encode o ++ r) = .ok (value o, r) := by
  have hk := value_ok h
  have hg := h
  unfold Good at h
  cases ht : o.d.ty with
  | bool =>
    have e : encode o = encP (value o) := by simp only [encode, value, ht, encP]
    rw [e] at hf ⊢; exact dec_encP _ hk f r hf
  | int =>
    rw [ht] at h
    have e : encode o = encP (value o) := by simp only [encode, value, ht, encP]; exact writeInteger_signed h.1
    rw [e] at hf ⊢; exact dec_encP _ hk f r hf
  | str =>
    have e : encode o = enc (value o) := by simp only [encode, value, ht, enc]
    rw [e] at hf ⊢
    have := dec_enc _ (textOK_wf _ hk) f r hf
    rwa [stored_textOK _ hk] at this
  | json =>
    rw [ht] at h
    simp only at h
    rcases h with h | ⟨v, hv, e⟩
    · have e : encode o = encP (value o) := by simp [encode, value, ht, encP, h]
      rw [e] at hf ⊢; exact dec_encP _ hk f r hf
    · have hn : o.str ≠ [] := by
        rcases e with e | e
        · rw [e]; exact enc_ne_nil v
        · rw [e]; exact encP_ne_nil v
      have hv' := value_json ht hv e
      have e2 : encode o = o.str := by simp only [encode, ht]; rw [if_pos hn]
      rw [e2] at hf ⊢
      rw [hv']
      rcases e with e | e
      · rw [e] at hf ⊢
        have := dec_enc v (textOK_wf v hv) f r hf
        rwa [stored_textOK v hv] at this
      · rw [e] at hf ⊢; exact dec_encP v hv f r hf

/-- the option after it has read a value -/
def setVal (o : Opt) (v : J) : Opt :=
  match o.d.ty, v with
  | .bool, .bool b => { o with int := if b then 1 else 0 }
  | .int, .int i => { o with int := toUnsigned 64 i }
  | .str, .str s => { o with str := s }
  | .json, v => { o with str := encP v }
  | _, _ => o

theorem setVal_d (o : Opt) (v : J) : (setVal o v).d = o.d := by
  unfold setVal; split <;> rfl

theorem setJson_value {o o' : Opt} (h : Good o) (hd : o'.d = o.d) (r : Bytes) : setJson o' (encP (value o) ++ r) = .ok (setVal o' (value o), r) := by
  have hk := value_ok h
  have h0 := h
  unfold Good at h
  cases ht : o.d.ty with
  | bool =>
    have ht' : o'.d.ty = .bool := by rw [hd]; exact ht
    simp only [value, ht, encP, setVal, ht']
    cases (decide (o.int ≠ 0)) <;> simp [setJson, writeBool, peek, Except.bind, ht', clsOf, readBool]
  | int =>
    rw [ht] at h
    have ht' : o'.d.ty = .int := by rw [hd]; exact ht
    have hb := signed_ok h.1 h.2.1
    simp only [value, ht, encP, setVal, ht']
    have h1 := readInteger_write (toSigned 64 o.int) (by omega) (by omega) r
    obtain ⟨t, q, e, hc⟩ := Verif.Catalog.clsOf_int' (toSigned 64 o.int) (by omega) (by omega)
    rw [e] at h1 ⊢
    have hz : ¬ (toSigned 64 o.int = 0 ∧ o'.d.z = true) := by
      rintro ⟨a, b⟩
      rw [hd] at b
      have := h.2.2 b
      have h3 := toUnsigned_toSigned h.1
      rw [a] at h3
      simp [toUnsigned] at h3
      omega
    simp only [setJson, List.cons_append, peek, Except.bind, ht', hc, if_true] at h1 ⊢
    rw [h1]
    simp only [hz, if_false]
  | str =>
    rw [ht] at h
    have ht' : o'.d.ty = .str := by rw [hd]; exact ht
    simp only [value, ht, encP, setVal, ht']
    have h1 := readRaw_strForm o.str h.2 r
    obtain ⟨t, q, e, hc⟩ := strForm_head o.str
    rw [e] at h1 ⊢
    simp only [setJson, List.cons_append, peek, Except.bind, ht', clsOf_str t hc, if_true] at h1 ⊢
    rw [h1]
  | json =>
    have ht' : o'.d.ty = .json := by rw [hd]; exact ht
    obtain ⟨t, q, e, hc⟩ := encP_head (value o)
    have hp : peek (encP (value o) ++ r) = .ok t := by rw [e]; rfl
    have hs : setVal o' (value o) = { o' with str := encP (value o) } := by
      unfold setVal; rw [ht']
    have ht2 : (encP (value o) ++ r).take ((encP (value o) ++ r).length - r.length) = encP (value o) := by
      simp
    simp only [setJson, hp, Except.bind, ht', skip_encP hk r, ht2]
    rw [hs]

theorem value_setVal {o o' : Opt} (h : Good o) (hd : o'.d = o.d) : value (setVal o' (value o)) = value o ∧ Good (setVal o' (value o)) := by
  have hk := value_ok h
  have h0 := h
  unfold Good at h
  cases ht : o.d.ty with
  | bool =>
    have ht' : o'.d.ty = .bool := by rw [hd]; exact ht
    refine ⟨?_, by simp [Good, setVal_d, ht']⟩
    simp only [value, ht, setVal, ht']
    by_cases hb : o.int ≠ 0 <;> simp [hb]
  | int =>
    rw [ht] at h
    have ht' : o'.d.ty = .int := by rw [hd]; exact ht
    have e : setVal o' (value o) = { o' with int := o.int } := by
      simp only [value, ht, setVal, ht', toUnsigned_toSigned h.1]
    rw [e]
    exact ⟨by simp only [value, ht, ht'], by unfold Good; simp only [ht']; rw [hd]; exact h⟩
  | str =>
    rw [ht] at h
    have ht' : o'.d.ty = .str := by rw [hd]; exact ht
    have e : setVal o' (value o) = { o' with str := o.str } := by
      simp only [value, ht, setVal, ht']
    rw [e]
    exact ⟨by simp only [value, ht, ht'], by unfold Good; simp only [ht']; exact h⟩
  | json =>
    have ht' : o'.d.ty = .json := by rw [hd]; exact ht
    have e : setVal o' (value o) = { o' with str := encP (value o) } := by
      unfold setVal; rw [ht']
    rw [e]
    exact ⟨value_json (o := { o' with str := encP (value o) }) ht' hk (.inr rfl), by unfold Good; simp only [ht']; exact .inr ⟨_, hk, .inr rfl⟩⟩

/-! ## the list -/

theorem fieldsOf_dec : ∀ (l : List Opt), GoodL l → (∀ o ∈ l, Utf8 o.d.name ∧ o.d.name.length < 2 ^ 31) → ∀ (f : Nat) (r : Bytes), (fieldsOf l).length + 1 ≤ f →
    decFields f (fieldsOf l ++ tOBJ_END :: r) = .ok (fields l, r)
  | [], _, _, f, r, hf => by
    obtain ⟨n, rfl⟩ : ∃ n, f = n + 1 := ⟨f - 1, by omega⟩
    rfl
  | o :: l, hg, hn, f, r, hf => by
    simp only [fieldsOf, fields] at hf ⊢
    by_cases he : o.d.e = true
    · simp only [he, if_true] at hf ⊢
      exact fieldsOf_dec l (fun x hx => hg x (by simp [hx])) (fun x hx => hn x (by simp [hx])) f r hf
    · have he : o.d.e = false := by simpa using he
      simp only [he, Bool.false_eq_true, if_false] at hf ⊢
      obtain ⟨n, rfl⟩ : ∃ n, f = n + 1 := ⟨f - 1, by omega⟩
      obtain ⟨t, q, e, ht⟩ := writeRaw_head o.d.name
      have hw := readRaw_write o.d.name (hn o (by simp)).2 (encode o ++ (fieldsOf l ++ tOBJ_END :: r))
      have hpos : 0 < (writeRaw o.d.name).length := by rw [e]; simp
      have h1 : readObjEnd (writeRaw o.d.name ++ (encode o ++ (fieldsOf l ++ tOBJ_END :: r))) = .ok none := by
        rw [e]
        have : t ≠ 79 := by omega
        simp [readObjEnd, this]
      have hd := dec_encode (hg o (by simp) he) n (by simp at hf; omega) (fieldsOf l ++ tOBJ_END :: r)
      have ih := fieldsOf_dec l (fun x hx => hg x (by simp [hx])) (fun x hx => hn x (by simp [hx])) n r (by simp at hf; omega)
      simp only [List.append_assoc, decFields, bind, Except.bind]
      rw [h1]
      simp only
      rw [hw]
      simp only
      rw [hd]
      simp only
      rw [ih]

theorem saveText_eq (L : Libc) (l : List Opt) (hg : GoodL l) (hn : ∀ o ∈ l, Utf8 o.d.name ∧ o.d.name.length < 2 ^ 31) :
    saveText L l = .ok (textOf L true 0 (.obj (fields l))) := by
  have h1 := fieldsOf_dec l hg hn ((persistent l).length) [] (by simp [persistent])
  have h2 : dec ((persistent l).length + 1) (persistent l) = .ok (.obj (fields l), []) := by
    unfold persistent at h1 ⊢
    simp only [dec, peek, bind, Except.bind, show clsOf tOBJ = .obj by decide, readObj, if_true]
    rw [h1]
  have h3 := (exp_of_dec L true ((persistent l).length + 1)).1 _ _ _ 0 h2
  unfold saveText export_
  rw [h3]
  rfl

theorem fields_ok : ∀ (l : List Opt), GoodL l → (∀ o ∈ l, Utf8 o.d.name ∧ o.d.name.length < 2 ^ 31) → TextOKFields (fields l)
  | [], _, _ => by simp [fields, TextOKFields]
  | o :: l, hg, hn => by
    have ih := fields_ok l (fun x hx => hg x (by simp [hx])) (fun x hx => hn x (by simp [hx]))
    simp only [fields]
    by_cases he : o.d.e = true
    · rw [if_pos he]; exact ih
    · have he : o.d.e = false := by simpa using he
      rw [if_neg (by simp [he])]
      simp only [TextOKFields]
      exact ⟨hn o (by simp), value_ok (hg o (by simp) he), ih⟩

/-- the options after the file of `l` was read into `l'` -/
def restore : List Opt → List Opt → List Opt
  | o :: l, o' :: l' => (if o.d.e then o' else setVal o' (value o)) :: restore l l'
  | _, l' => l'

theorem update_skip (f : Opt → Res (Opt × Bytes)) (name : Bytes) : ∀ (a l : List Opt), name ∉ a.map (fun o => o.d.name) →
    update f name (a ++ l) = (update f name l).bind fun r => .ok (r.map fun q => (a ++ q.1, q.2))
  | [], l, _ => by
    simp only [List.nil_append]
    cases update f name l with
    | error e => rfl
    | ok r => cases r <;> rfl
  | x :: a, l, h => by
    simp only [List.map_cons, List.mem_cons, not_or] at h
    simp only [List.cons_append, update]
    rw [if_neg (fun e => h.1 e.symm), update_skip f name a l h.2]
    cases update f name l with
    | error e => rfl
    | ok r => cases r <;> rfl

theorem setLoop_fields : ∀ (l l' done : List Opt), l'.map Opt.d = l.map Opt.d → GoodL l →
    (∀ o ∈ l, (Utf8 o.d.name ∧ o.d.name.length < 2 ^ 31) ∧ (o.d.e = false → o.d.c = true)) →
    ((done ++ l).map fun o => o.d.name).Nodup → ∀ (f : Nat) (r : Bytes), (fields l).length < f →
    setLoop f (done ++ l') (encPFields (fields l) ++ tOBJ_END :: r) = .ok (done ++ restore l l')
  | [], l', done, hd, _, _, _, f, r, hf => by
    have : l' = [] := by simpa using hd
    subst this
    obtain ⟨n, rfl⟩ : ∃ n, f = n + 1 := ⟨f - 1, by omega⟩
    rfl
  | o :: l, l', done, hd, hg, hs, hn, f, r, hf => by
    cases l' with
    | nil => simp at hd
    | cons o' l' =>
      simp only [List.map_cons, List.cons.injEq] at hd
      obtain ⟨hd1, hd2⟩ := hd
      have hdis : o.d.name ∉ done.map (fun x => x.d.name) := by
        simp only [List.map_append, List.map_cons, List.nodup_append, List.mem_cons] at hn
        intro hm
        exact hn.2.2 _ hm _ (.inl rfl) rfl
      have step : ∀ x : Opt, x.d = o.d → ((done ++ [x] ++ l).map fun o => o.d.name).Nodup := by
        intro x hx
        simpa [hx] using hn
      simp only [fields, restore]
      by_cases he : o.d.e = true
      · simp only [he, if_true]
        have hf' : (fields l).length < f := by simp only [fields, he, if_true] at hf; exact hf
        have ih := setLoop_fields l l' (done ++ [o']) hd2 (fun x hx => hg x (by simp [hx])) (fun x hx => hs x (by simp [hx])) (step o' hd1) f r hf'
        simpa using ih
      · have he : o.d.e = false := by simpa using he
        simp only [he, Bool.false_eq_true, if_false]
        simp only [fields, he, Bool.false_eq_true, if_false, List.length_cons] at hf
        obtain ⟨n, rfl⟩ : ∃ n, f = n + 1 := ⟨f - 1, by omega⟩
        have hso := hs o (by simp)
        have h0 := readRaw_strForm o.d.name hso.1.2 (encP (value o) ++ (encPFields (fields l) ++ (tOBJ_END :: r)))
        have h3 : readObjEnd (strForm o.d.name ++ (encP (value o) ++ (encPFields (fields l) ++ (tOBJ_END :: r)))) = .ok none := by
          obtain ⟨x, q, h, h2⟩ := strForm_head o.d.name
          have : x ≠ 79 := by omega
          simp [h, readObjEnd, this]
        simp only [encPFields, List.append_assoc, setLoop]
        rw [h3]
        simp only [Except.bind, Option.elim]
        rw [h0]
        simp only
        rw [update_skip _ _ _ _ hdis]
        have hc : o'.d.c = true := by rw [hd1]; exact hso.2 he
        have hname : o'.d.name = o.d.name := by rw [hd1]
        simp only [update, hname, if_true, guarded, hc, setJson_value (hg o (by simp) he) hd1, Except.bind, Option.map]
        have ih := setLoop_fields l l' (done ++ [setVal o' (value o)]) hd2 (fun x hx => hg x (by simp [hx])) (fun x hx => hs x (by simp [hx]))
          (step _ (by rw [setVal_d, hd1])) n r (by omega)
        simpa using ih

theorem fields_len (l : List Opt) : (fields l).length ≤ (encPFields (fields l)).length := Verif.Catalog.encPFields_len _

/-- what is saved is what is read -/
theorem set_save (L : Libc) (l l' : List Opt) (hs : Sound (l.map Opt.d)) (hd : l'.map Opt.d = l.map Opt.d) (hg : GoodL l) :
    ∃ t, saveText L l = .ok t ∧ set L l' t = .ok (restore l l') := by
  have hn : ∀ o ∈ l, Utf8 o.d.name ∧ o.d.name.length < 2 ^ 31 := fun o ho => (hs.2 o.d (List.mem_map_of_mem ho)).1
  refine ⟨_, saveText_eq L l hg hn, ?_⟩
  have hk : TextOK (.obj (fields l)) := by simp only [TextOK]; exact fields_ok l hg hn
  have hp := parse_textOf L true (.obj (fields l)) hk [] trivial 0
  rw [List.append_nil] at hp
  unfold set
  rw [hp]
  simp only [Except.bind, encP, readObj, if_true]
  have := setLoop_fields l l' [] hd hg (fun o ho => hs.2 o.d (List.mem_map_of_mem ho)) (by simpa [List.map_map, Function.comp_def] using hs.1)
    ((encPFields (fields l) ++ [tOBJ_END]).length + 1) [] (by have := fields_len l; simp; omega)
  simpa using this

theorem restore_d : ∀ (l l' : List Opt), l'.map Opt.d = l.map Opt.d → (restore l l').map Opt.d = l.map Opt.d
  | [], l', h => by simpa [restore] using h
  | o :: l, [], h => by simp at h
  | o :: l, o' :: l', h => by
    simp only [List.map_cons, List.cons.injEq] at h
    simp only [restore, List.map_cons, restore_d l l' h.2]
    split
    · rw [h.1]
    · rw [setVal_d, h.1]

/-- the values that are kept are those that were saved, the others are those of the new process -/
theorem restore_values : ∀ (l l' : List Opt), l'.map Opt.d = l.map Opt.d → GoodL l →
    (restore l l').map value = List.zipWith (fun o o' => if o.d.e then value o' else value o) l l'
  | [], l', h, _ => by have : l' = [] := by simpa using h
                       subst this; rfl
  | o :: l, [], h, _ => by simp at h
  | o :: l, o' :: l', h, hg => by
    simp only [List.map_cons, List.cons.injEq] at h
    simp only [restore, List.map_cons, List.zipWith_cons_cons, restore_values l l' h.2 (fun x hx => hg x (by simp [hx]))]
    by_cases he : o.d.e = true
    · simp [he]
    · have he : o.d.e = false := by simpa using he
      simp [he, (value_setVal (hg o (by simp) he) h.1).1]

theorem restore_good : ∀ (l l' : List Opt), l'.map Opt.d = l.map Opt.d → GoodL l → GoodL l' → GoodL (restore l l')
  | [], l', _, _, h => by simpa [restore] using h
  | o :: l, [], h, _, _ => by simp at h
  | o :: l, o' :: l', h, hg, hg' => by
    simp only [List.map_cons, List.cons.injEq] at h
    intro x hx hxe
    simp only [restore, List.mem_cons] at hx
    rcases hx with rfl | hx
    · by_cases he : o.d.e = true
      · simp only [he, if_true] at hxe ⊢
        exact hg' o' (by simp) hxe
      · have he : o.d.e = false := by simpa using he
        simp only [he, Bool.false_eq_true, if_false]
        exact (value_setVal (hg o (by simp) he) h.1).2
    · exact restore_good l l' h.2 (fun x hx => hg x (by simp [hx])) (fun x hx => hg' x (by simp [hx])) x hx hxe

theorem restore_fields : ∀ (l l' : List Opt), l'.map Opt.d = l.map Opt.d → GoodL l → fields (restore l l') = fields l
  | [], l', h, _ => by have : l' = [] := by simpa using h
                       subst this; rfl
  | o :: l, [], h, _ => by simp at h
  | o :: l, o' :: l', h, hg => by
    simp only [List.map_cons, List.cons.injEq] at h
    have ih := restore_fields l l' h.2 (fun x hx => hg x (by simp [hx]))
    by_cases he : o.d.e = true
    · have he' : o'.d.e = true := by rw [h.1]; exact he
      simp only [restore, fields, he, if_true, he', ih]
    · have he : o.d.e = false := by simpa using he
      have he' : o'.d.e = false := by rw [h.1]; exact he
      simp only [restore, fields, he, Bool.false_eq_true, if_false, setVal_d, he', ih, h.1, (value_setVal (hg o (by simp) he) h.1).1]

end Verif.Config
