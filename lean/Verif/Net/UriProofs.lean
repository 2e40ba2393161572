import Verif.Net.UriSpec
import Verif.Json.ParseProofs
set_option linter.unusedSimpArgs false
set_option linter.unusedVariables false
namespace Verif.Net.Uri
open Verif

/-! ## cutting -/

theorem before_mid {c : Nat} {a b : Bytes} (h : c ∉ a) : before c (a ++ c :: b) = a ∧ fromC c (a ++ c :: b) = c :: b := by
  have ha : ∀ x ∈ a, decide (x ≠ c) = true := by
    intro x hx; simp; rintro rfl; exact h hx
  unfold before fromC
  rw [List.takeWhile_append_of_pos ha, List.dropWhile_append_of_pos ha]
  simp

theorem before_all {c : Nat} {a : Bytes} (h : c ∉ a) : before c a = a ∧ fromC c a = [] := by
  have ha : ∀ x ∈ a, decide (x ≠ c) = true := by
    intro x hx; simp; rintro rfl; exact h hx
  unfold before fromC
  have h1 := List.takeWhile_append_of_pos (l₂ := []) ha
  have h2 := List.dropWhile_append_of_pos (l₂ := []) ha
  simp only [List.append_nil, List.takeWhile_nil, List.dropWhile_nil] at h1 h2
  exact ⟨h1, h2⟩

theorem span_run {p : Nat → Bool} {a b : Bytes} (h : ∀ x ∈ a, p x = true) (hb : ∀ c t, b = c :: t → p c = false) :
    (a ++ b).takeWhile p = a ∧ (a ++ b).dropWhile p = b := by
  rw [List.takeWhile_append_of_pos h, List.dropWhile_append_of_pos h]
  cases b with
  | nil => simp
  | cons c t => simp [List.takeWhile_cons, List.dropWhile_cons, hb c t rfl]

/-! ## percent -/

theorem hexVal_digit (n : Nat) (h : n < 16) : hexVal (hexDigit n) = some n := by
  have : ∀ n, n < 16 → hexVal (hexDigit n) = some n := by decide
  exact this n h

theorem pctDecode_cons (c : Nat) (t r : Bytes) (hc : c ≠ 37) (h : pctDecode t = .ok r) : pctDecode (c :: t) = .ok (c :: r) := by
  match t with
  | [] => simp only [pctDecode] at h ⊢; cases h; simp [hc]
  | [d] => simp only [pctDecode, hc, if_false] at h ⊢; rw [h]; rfl
  | a :: b :: t => simp only [pctDecode, hc, if_false]; rw [h]; rfl

theorem pctDecode_pct (a b : Nat) (t r : Bytes) (v : Nat) (hv : hexByte a b = .ok v) (h : pctDecode t = .ok r) :
    pctDecode (37 :: a :: b :: t) = .ok (v :: r) := by
  simp only [pctDecode, if_true]; rw [hv, h]; rfl

theorem pct_back : ∀ (s : Bytes), IsBytes s → pctDecode (pctEncode s) = .ok s
  | [], _ => rfl
  | c :: t, h => by
    have ih := pct_back t (fun x hx => h x (by simp [hx]))
    have hc := h c (by simp)
    simp only [pctEncode, List.flatMap_cons]
    by_cases hu : unreserved c
    · rw [if_pos hu]
      exact pctDecode_cons c _ _ (by unfold unreserved at hu; omega) ih
    · rw [if_neg hu]
      refine pctDecode_pct _ _ _ _ c ?_ ih
      simp only [hexByte, hexVal_digit _ (show c / 16 < 16 by omega), hexVal_digit _ (show c % 16 < 16 by omega)]
      congr 1; omega

theorem pct_plain : ∀ (s : Bytes), 37 ∉ s → pctDecode s = .ok s
  | [], _ => rfl
  | c :: t, h => by
    simp at h
    exact pctDecode_cons c t t (fun e => h.1 e.symm) (pct_plain t h.2)

theorem pct_chars {s : Bytes} (h : IsBytes s) : ∀ c ∈ pctEncode s, unreserved c ∨ c = 37 := by
  intro c hc
  simp only [pctEncode, List.mem_flatMap] at hc
  obtain ⟨x, hx, hc⟩ := hc
  have hb := h x hx
  split at hc
  · simp at hc; subst hc; left; assumption
  · have hd : ∀ n, n < 16 → unreserved (hexDigit n) := by decide
    simp at hc
    rcases hc with rfl | rfl | rfl
    · right; rfl
    · left; exact hd _ (by omega)
    · left; exact hd _ (by omega)

theorem pct_without {s : Bytes} (h : IsBytes s) (c : Nat) (hc : ¬ unreserved c) (h37 : c ≠ 37) : c ∉ pctEncode s := by
  intro hm
  rcases pct_chars h c hm with h1 | h1
  · exact hc h1
  · exact h37 h1

theorem pct_ne {s : Bytes} (h : s ≠ []) : pctEncode s ≠ [] := by
  cases s with
  | nil => exact absurd rfl h
  | cons c t => simp only [pctEncode, List.flatMap_cons]; split <;> simp

theorem key_bytes : ∀ k ∈ strKeys, IsBytes k ∧ k ≠ [] := by unfold IsBytes; decide

/-! ## arguments -/

/-- raw arguments: the text of name and value and what they decode to -/
structure Raw where
  rn : Bytes
  rv : Bytes
  n : Bytes
  v : Bytes

structure Raw.Ok (a : Raw) : Prop where
  ne : a.rn ≠ []
  eq : 61 ∉ a.rn
  amp : 38 ∉ a.rv
  dn : pctDecode a.rn = .ok a.n
  dv : pctDecode a.rv = .ok a.v
  key : a.n ∈ strKeys
  nuri : a.n ≠ str "uri"

def rawText : List Raw → Bytes
  | [] => []
  | [a] => a.rn ++ [61] ++ a.rv
  | a :: t => a.rn ++ [61] ++ a.rv ++ [38] ++ rawText t

def setAll (e : Ep) (l : List (Bytes × Bytes)) : Ep := l.foldl (fun e a => e.set a.1 a.2) e

theorem argsLoop_raw : ∀ (l : List Raw) (f : Nat) (e : Ep), l ≠ [] → (∀ a ∈ l, a.Ok) → l.length ≤ f →
    argsLoop f e (rawText l) = .ok (setAll e (l.map fun a => (a.n, a.v)))
  | [], _, _, h, _, _ => absurd rfl h
  | a :: l, 0, e, _, _, h => by simp at h
  | a :: l, f + 1, e, _, hok, hf => by
    have ha := hok a (by simp)
    have hset : argSet e a.n a.v = .ok (e.set a.n a.v) := by
      unfold argSet
      rw [if_neg ha.nuri, if_pos ha.key]
    cases l with
    | nil =>
      have e1 : rawText [a] = a.rn ++ 61 :: a.rv := by simp [rawText]
      obtain ⟨b1, b2⟩ := before_mid (b := a.rv) ha.eq
      obtain ⟨b3, b4⟩ := before_all ha.amp
      rw [e1]
      simp only [argsLoop, b1, b2, List.drop_succ_cons, List.drop_zero, b3, b4, ha.ne, if_false, ha.dn, ha.dv, Except.bind, hset,
        reduceCtorEq, if_true]
      rfl
    | cons b l =>
      have e1 : rawText (a :: b :: l) = a.rn ++ 61 :: (a.rv ++ 38 :: rawText (b :: l)) := by simp [rawText]
      obtain ⟨b1, b2⟩ := before_mid (b := a.rv ++ 38 :: rawText (b :: l)) ha.eq
      obtain ⟨b3, b4⟩ := before_mid (b := rawText (b :: l)) ha.amp
      rw [e1]
      simp only [argsLoop, b1, b2, List.drop_succ_cons, List.drop_zero, b3, b4, ha.ne, if_false, ha.dn, ha.dv, Except.bind, hset,
        reduceCtorEq]
      rw [argsLoop_raw (b :: l) f (e.set a.n a.v) (by simp) (fun x hx => hok x (by simp [hx])) (by simp at hf ⊢; omega)]
      rfl

theorem rawText_len : ∀ (l : List Raw), l.length ≤ (rawText l).length
  | [] => by simp
  | [a] => by simp [rawText]; omega
  | a :: b :: l => by
    have := rawText_len (b :: l)
    simp [rawText] at this ⊢; omega

theorem parseArgs_raw (l : List Raw) (e : Ep) (hok : ∀ a ∈ l, a.Ok) :
    parseArgs e (if l = [] then [] else 63 :: rawText l) = .ok (setAll e (l.map fun a => (a.n, a.v))) := by
  by_cases h : l = []
  · subst h; rfl
  · rw [if_neg h]
    simp only [parseArgs, reduceCtorEq, if_false, List.headD_cons, ne_eq, not_true, List.drop_succ_cons, List.drop_zero]
    exact argsLoop_raw l _ e h hok (by have := rawText_len l; simp; omega)

def rawOf (a : Bytes × Bytes) : Raw := ⟨pctEncode a.1, pctEncode a.2, a.1, a.2⟩

theorem rawText_of : ∀ (l : List (Bytes × Bytes)), rawText (l.map rawOf) = argsText l
  | [] => rfl
  | [a] => rfl
  | a :: b :: l => by
    have := rawText_of (b :: l)
    simp only [List.map_cons] at this ⊢
    simp only [rawText, argsText, this]
    rfl

theorem parseArgs_text (l : List (Bytes × Bytes)) (e : Ep) (h : ArgsOk l) : parseArgs e (argsPart l) = .ok (setAll e l) := by
  have hr := parseArgs_raw (l.map rawOf) e (by
    intro a ha
    obtain ⟨x, hx, rfl⟩ := List.mem_map.1 ha
    obtain ⟨h1, h2, h3⟩ := h x hx
    obtain ⟨k1, k2⟩ := key_bytes _ h1
    exact ⟨pct_ne k2, pct_without k1 61 (by decide) (by decide), pct_without h3 38 (by decide) (by decide), pct_back _ k1, pct_back _ h3, h1, h2⟩)
  rw [rawText_of, List.map_map] at hr
  have e1 : (l.map ((fun a : Raw => (a.n, a.v)) ∘ rawOf)) = l := by
    rw [show (fun a : Raw => (a.n, a.v)) ∘ rawOf = id from rfl]; simp
  rw [e1] at hr
  unfold argsPart
  simpa using hr

/-! ## the path -/

theorem args_head (l : List (Bytes × Bytes)) : ∀ c t, argsPart l = c :: t → c = 63 := by
  intro c t h
  unfold argsPart at h
  split at h
  · cases h
  · simp at h; exact h.1.symm

theorem parsePath_text (p : Option (Bytes × Option Bytes)) (hp : PathOk p) (e : Ep) (r : Bytes) (hr : ∀ c t, r = c :: t → c = 63) :
    parsePath e (pathText p ++ r) = .ok (setAll e (pathSets p), r) := by
  have hend : atEnd r = true := by
    cases r with
    | nil => simp [atEnd]
    | cons c t => simp [atEnd, hr c t rfl]
  have hrp : ∀ c t, r = c :: t → pathChar c = false := by
    intro c t h; rw [hr c t h]; decide
  have chars : ∀ s, Without [0, 47, 63] s → ∀ x ∈ s, pathChar x = true := by
    intro s hs x hx
    have := hs x hx
    simp at this
    simp [pathChar]; omega
  have notEnd : ∀ s t, s ≠ [] → Without [0, 47, 63] s → atEnd (s ++ t) = false := by
    intro s t hs hw
    cases s with
    | nil => exact absurd rfl hs
    | cons c s =>
      have := hw c (by simp)
      simp at this
      simp [atEnd]; omega
  match p, hp with
  | none, _ => simp only [pathText, List.nil_append, parsePath, hend, if_true]; rfl
  | some (db, none), ⟨h1, h2⟩ =>
    obtain ⟨s1, s2⟩ := span_run (b := r) (chars db h2) hrp
    simp only [pathText, parsePath, notEnd db r h1 h2, Bool.false_eq_true, if_false, s1, s2, h1, hend, if_true]
    rfl
  | some (db, some rel), ⟨h1, h2, h3, h4⟩ =>
    obtain ⟨s1, s2⟩ := span_run (b := 47 :: (rel ++ r)) (chars db h2) (by intro c t h; cases h; decide)
    obtain ⟨s3, s4⟩ := span_run (b := r) (chars rel h4) hrp
    have e1 : pathText (some (db, some rel)) ++ r = db ++ 47 :: (rel ++ r) := by simp [pathText]
    have h5 : atEnd (47 :: (rel ++ r)) = false := by simp [atEnd]
    rw [e1]
    simp only [parsePath, notEnd db _ h1 h2, Bool.false_eq_true, if_false, s1, s2, h1, h5, List.drop_succ_cons, List.drop_zero,
      notEnd rel r h3 h4, s3, s4, h3, hend, if_true]
    rfl

/-! ## the host -/

theorem portLoop_digits (r : Bytes) (hr : ∀ c t, r = c :: t → Json.Text.isDigit c = false) : ∀ (n v : Nat), 
    (∃ k, v * 10 ^ k + n < 2 ^ 31 ∧ (Json.Text.decDigits n).length = k) →
    portLoop v (Json.Text.decDigits n ++ r) = some (v * 10 ^ (Json.Text.decDigits n).length + n, r) := by
  have step : ∀ (n v : Nat) (r' : Bytes), v * 10 ^ (Json.Text.decDigits n).length + n < 2 ^ 31 →
      portLoop v (Json.Text.decDigits n ++ r') = portLoop (v * 10 ^ (Json.Text.decDigits n).length + n) r' := by
    intro n
    induction n using Nat.strongRecOn with
    | ind n ih =>
      intro v r' h
      rw [Json.Text.decDigits.eq_def] at h ⊢
      by_cases hn : n < 10
      · simp only [hn, dite_true, List.length_singleton, Nat.pow_one] at h ⊢
        simp only [List.singleton_append, portLoop]
        rw [if_pos (by simp [Json.Text.isDigit]; omega), if_pos (by omega)]
        congr 1; omega
      · simp only [hn, dite_false, List.length_append, List.length_singleton] at h ⊢
        have e1 : v * 10 ^ ((Json.Text.decDigits (n / 10)).length + 1) = v * 10 ^ (Json.Text.decDigits (n / 10)).length * 10 := by
          rw [Nat.pow_succ, Nat.mul_assoc]
        rw [e1] at h ⊢
        rw [List.append_assoc, ih (n / 10) (by omega) v _ (by omega)]
        simp only [List.singleton_append, portLoop]
        rw [if_pos (by simp [Json.Text.isDigit]; omega), if_pos (by omega)]
        congr 1; omega
  intro n v ⟨k, hk, hl⟩
  subst hl
  rw [step n v r hk]
  cases r with
  | nil => rfl
  | cons c t => simp [portLoop, hr c t rfl]

theorem digits_ne (n : Nat) : Json.Text.decDigits n ≠ [] := by
  obtain ⟨c, t, h, _⟩ := Json.Text.decDigits_head n
  rw [h]; simp

def withPort (e : Ep) : Option Nat → Ep
  | none => e
  | some p => { e with port := p }

theorem parsePort_text (p : Option Nat) (hp : ∀ x, p = some x → x < 2 ^ 31) (e : Ep) (r : Bytes)
    (hr : ∀ c t, r = c :: t → Json.Text.isDigit c = false ∧ c ≠ 58) : parsePort e (portText p ++ r) = .ok (withPort e p, r) := by
  cases p with
  | none =>
    have : r.headD 0 ≠ 58 := by
      cases r with
      | nil => simp
      | cons c t => simpa using (hr c t rfl).2
    simp [portText, parsePort, this, withPort]
    intro h; simp at this; exact absurd h this
  | some p =>
    have hl := portLoop_digits r (fun c t h => (hr c t h).1) p 0 ⟨_, by simpa using hp p rfl, rfl⟩
    simp only [Nat.zero_mul, Nat.zero_add] at hl
    have hne : ¬ r.length = (Json.Text.decDigits p ++ r).length := by
      have := List.length_pos_iff.2 (digits_ne p)
      rw [List.length_append]; omega
    simp only [portText, List.cons_append, List.nil_append, parsePort, List.headD_cons, if_true, List.drop_succ_cons, List.drop_zero, hl]
    rw [if_neg hne]
    rfl

theorem parseName_text (h : Host) (r : Bytes) (h0 : h.name ≠ []) (h1 : ∀ n, h = .plain n → Without [0, 58, 44, 47, 63, 91] n)
    (h2 : ∀ n, h = .bracket n → Without [0, 93] n) (hr : ∀ c t, r = c :: t → hostChar c = false) :
    parseName (h.text ++ r) = .ok (h.name, r) := by
  cases h with
  | plain n =>
    have hw := h1 n rfl
    have hc : ∀ x ∈ n, hostChar x = true := by
      intro x hx; have := hw x hx; simp at this; simp [hostChar]; omega
    obtain ⟨s1, s2⟩ := span_run (b := r) hc hr
    have hh : (n ++ r).headD 0 ≠ 91 := by
      cases n with
      | nil => exact absurd rfl h0
      | cons c n => have := hw c (by simp); simp at this; simp; omega
    simp only [Host.name] at h0
    simp only [Host.text, Host.name, parseName, hh, if_false, s1, s2, h0]
  | bracket n =>
    have hw := h2 n rfl
    have hm : 93 ∉ n := by intro hx; have := hw 93 hx; simp at this
    obtain ⟨s1, s2⟩ := before_mid (b := r) hm
    simp only [Host.name] at h0
    have e1 : (Host.bracket n).text ++ r = 91 :: (n ++ 93 :: r) := by simp [Host.text]
    rw [e1]
    simp only [Host.name, parseName, List.headD_cons, if_true, List.drop_succ_cons, List.drop_zero, s1, s2, reduceCtorEq, if_false, h0]

theorem port_head (p : Option Nat) (r : Bytes) (hr : ∀ c t, r = c :: t → hostChar c = false) : ∀ c t, portText p ++ r = c :: t → hostChar c = false := by
  cases p with
  | none => simpa [portText] using hr
  | some p => intro c t h; simp [portText] at h; rw [← h.1]; decide

theorem parseHost_text (a : Address) (ha : a.Ok) (e : Ep) (r : Bytes) :
    parseHost e (a.host.text ++ portText a.port ++ 47 :: r) = .ok (withPort (e.set (str "host") a.host.name) a.port, r) := by
  unfold parseHost
  obtain ⟨h0, h1, h2⟩ := ha.host
  rw [List.append_assoc, parseName_text a.host _ h0 h1 h2 (port_head a.port _ (by intro c t h; cases h; decide))]
  simp only [Except.bind]
  rw [parsePort_text a.port ha.port _ _ (by intro c t h; cases h; decide)]
  simp only [hostEnd, List.headD_cons, List.drop_succ_cons, List.drop_zero]
  rfl

/-! ## the user -/

theorem parseUser_text (u : Option (Bytes × Option Bytes))
    (hu : ∀ n p, u = some (n, p) → n ≠ [] ∧ Without [0, 64, 58] n ∧ ∀ s, p = some s → Without [0, 64] s) (r : Bytes)
    (hr : u = none → 64 ∉ r) (e : Ep) : parseUser e (userText u ++ r) = .ok (setAll e (userSets u), r) := by
  match u with
  | none =>
    obtain ⟨b1, b2⟩ := before_all (hr rfl)
    simp only [userText, List.nil_append, parseUser, b2, if_true]
    rfl
  | some (n, none) =>
    obtain ⟨h1, h2, _⟩ := hu n none rfl
    have h64 : 64 ∉ n := fun hx => by have := h2 64 hx; simp at this
    have h58 : 58 ∉ n := fun hx => by have := h2 58 hx; simp at this
    obtain ⟨b1, b2⟩ := before_mid (b := r) h64
    have e1 : userText (some (n, none)) ++ r = n ++ 64 :: r := by simp [userText]
    rw [e1]
    simp only [parseUser, b1, b2, reduceCtorEq, if_false, h1, h58, List.drop_succ_cons, List.drop_zero]
    rfl
  | some (n, some p) =>
    obtain ⟨h1, h2, h3⟩ := hu n (some p) rfl
    have h3 := h3 p rfl
    have h58 : 58 ∉ n := fun hx => by have := h2 58 hx; simp at this
    have h64 : 64 ∉ n ++ 58 :: p := by
      intro hx
      simp at hx
      rcases hx with hx | hx
      · have := h2 64 hx; simp at this
      · have := h3 64 hx; simp at this
    obtain ⟨b1, b2⟩ := before_mid (b := r) h64
    obtain ⟨b3, b4⟩ := before_mid (b := p) h58
    have e1 : userText (some (n, some p)) ++ r = (n ++ 58 :: p) ++ 64 :: r := by simp [userText]
    rw [e1]
    have hne : ¬ (n ++ 58 :: p = []) := by simp
    have hin : 58 ∈ n ++ 58 :: p := by simp
    simp only [parseUser, b1, b2, reduceCtorEq, if_false, hne, hin, if_true, b3, b4, List.drop_succ_cons, List.drop_zero]
    rfl

/-! ## the scheme -/

def withProto (e : Ep) : Option Nat → Ep
  | none => e
  | some p => { e with proto := p }

theorem starts_append (p r : Bytes) : starts p (p ++ r) = true := by simp [starts]

theorem starts_cons_ne {p s : Bytes} {a b : Nat} (h : a ≠ b) : starts (a :: p) (b :: s) = false := by
  simp [starts]; intro e; exact absurd e.symm h

theorem parseProtocol_text (sc : Option Nat) (hs : ∀ x, sc = some x → x = 0 ∨ x = 1) (r : Bytes)
    (hr : sc = none → hasScheme r = false) (e : Ep) : parseProtocol e (schemeText sc ++ r) = .ok (withProto e sc, r) := by
  have noPre : ∀ (p q : Bytes), hasScheme r = false → p = q ++ [58, 47, 47] → starts p r = false := by
    intro p q hn hp
    subst hp
    induction q generalizing r with
    | nil =>
      cases r with
      | nil => rfl
      | cons c t => simp only [hasScheme, Bool.or_eq_false_iff] at hn; exact hn.1
    | cons a q ih =>
      cases r with
      | nil => rfl
      | cons c t =>
        simp only [hasScheme, Bool.or_eq_false_iff] at hn
        have := ih t (by intro h; exact hn.2) hn.2
        simp only [starts, decide_eq_false_iff_not] at this ⊢
        intro hh
        simp at hh this
        exact this hh.2
  match sc, hs with
  | none, _ =>
    have hn := hr rfl
    have e0 : schemeText none ++ r = r := rfl
    rw [e0]
    simp only [parseProtocol, noPre (str "http://") (str "http") hn (by decide), noPre (str "https://") (str "https") hn (by decide),
      noPre (str "amelie://") (str "amelie") hn (by decide), hn, Bool.false_eq_true, if_false]
    rfl
  | some 0, _ =>
    simp only [schemeText, parseProtocol, starts_append, if_true]
    rw [List.drop_append_of_le_length (by decide), show (str "http://").drop 7 = [] by decide]
    rfl
  | some (x + 1), hs =>
    have hx : x = 0 := by rcases hs _ rfl with h | h <;> omega
    subst hx
    have h1 : starts (str "http://") (str "https://" ++ r) = false := by
      have : (str "https://" ++ r).take 7 = (str "https://").take 7 := by
        rw [List.take_append_of_le_length (by decide)]
      simp only [starts, show (str "http://").length = 7 by decide, this]; decide
    simp only [schemeText, parseProtocol, h1, starts_append, Bool.false_eq_true, if_false, if_true]
    rw [List.drop_append_of_le_length (by decide), show (str "https://").drop 8 = [] by decide]
    rfl

/-! ## what was set -/

theorem setAll_s (l : List (Bytes × Bytes)) : ∀ (e : Ep) (k : Bytes), (setAll e l).s k = (lastOf l k).getD (e.s k) := by
  induction l with
  | nil => intro e k; rfl
  | cons a l ih =>
    intro e k
    have := ih (e.set a.1 a.2) k
    simp only [setAll, List.foldl_cons] at this ⊢
    rw [this]
    simp only [lastOf, List.reverse_cons, List.find?_append]
    cases h : l.reverse.find? fun a => decide (a.1 = k) with
    | some x => simp
    | none =>
      simp only [Option.map_none, Option.getD_none, Option.none_or, List.find?_cons, List.find?_nil, Ep.set]
      by_cases hk : a.1 = k
      · simp [hk]
      · simp [hk, Ne.symm hk]

theorem setAll_num (l : List (Bytes × Bytes)) : ∀ (e : Ep), (setAll e l).proto = e.proto ∧ (setAll e l).port = e.port ∧ (setAll e l).debug = e.debug := by
  induction l with
  | nil => intro e; exact ⟨rfl, rfl, rfl⟩
  | cons a l ih => intro e; exact ih (e.set a.1 a.2)

theorem setAll_append (e : Ep) (a b : List (Bytes × Bytes)) : setAll e (a ++ b) = setAll (setAll e a) b := by simp [setAll]

theorem withPort_set (e : Ep) (p : Option Nat) (l : List (Bytes × Bytes)) : setAll (withPort e p) l = withPort (setAll e l) p := by
  induction l generalizing e with
  | nil => rfl
  | cons a l ih =>
    have : (withPort e p).set a.1 a.2 = withPort (e.set a.1 a.2) p := by cases p <;> rfl
    simp only [setAll, List.foldl_cons] at ih ⊢
    rw [this]; exact ih _

theorem withProto_set (e : Ep) (p : Option Nat) (l : List (Bytes × Bytes)) : setAll (withProto e p) l = withProto (setAll e l) p := by
  induction l generalizing e with
  | nil => rfl
  | cons a l ih =>
    have : (withProto e p).set a.1 a.2 = withProto (e.set a.1 a.2) p := by cases p <;> rfl
    simp only [setAll, List.foldl_cons] at ih ⊢
    rw [this]; exact ih _

/-! ## no zero byte, no `@` -/

theorem digits_chars (n : Nat) : ∀ c ∈ Json.Text.decDigits n, 48 ≤ c ∧ c ≤ 57 := by
  induction n using Nat.strongRecOn with
  | ind n ih =>
    intro c hc
    rw [Json.Text.decDigits.eq_def] at hc
    split at hc
    · simp at hc; omega
    · simp at hc
      rcases hc with hc | hc
      · exact ih (n / 10) (by omega) c hc
      · omega

theorem argsText_chars : ∀ (l : List (Bytes × Bytes)), ArgsOk l → ∀ c ∈ argsText l, unreserved c ∨ c = 37 ∨ c = 61 ∨ c = 38
  | [], _, c, hc => by cases hc
  | [a], h, c, hc => by
    obtain ⟨h1, _, h3⟩ := h a (by simp)
    simp [argsText, argText] at hc
    rcases hc with hc | hc | hc
    · rcases pct_chars (key_bytes _ h1).1 c hc with h | h <;> simp [h]
    · simp [hc]
    · rcases pct_chars h3 c hc with h | h <;> simp [h]
  | a :: b :: l, h, c, hc => by
    obtain ⟨h1, _, h3⟩ := h a (by simp)
    have ih := argsText_chars (b :: l) (fun x hx => h x (by simp [hx]))
    have e1 : argsText (a :: b :: l) = argText a ++ [38] ++ argsText (b :: l) := rfl
    rw [e1] at hc
    simp only [List.mem_append, argText, List.mem_singleton] at hc
    rcases hc with ((((hc | hc) | hc) | hc)) | hc
    · rcases pct_chars (key_bytes _ h1).1 c hc with h | h <;> simp [h]
    · simp [hc]
    · rcases pct_chars h3 c hc with h | h <;> simp [h]
    · simp [hc]
    · exact ih c hc

theorem argsPart_without (l : List (Bytes × Bytes)) (h : ArgsOk l) (x : Nat) (h1 : ¬ unreserved x) (h2 : x ≠ 37 ∧ x ≠ 61 ∧ x ≠ 38 ∧ x ≠ 63) :
    x ∉ argsPart l := by
  unfold argsPart
  split
  · simp
  · intro hx
    simp at hx
    rcases hx with hx | hx
    · exact h2.2.2.2 hx
    · rcases argsText_chars l h x hx with h | h | h | h
      · exact h1 h
      · exact h2.1 h
      · exact h2.2.1 h
      · exact h2.2.2.1 h

theorem portText_chars (p : Option Nat) : ∀ c ∈ portText p, c = 58 ∨ (48 ≤ c ∧ c ≤ 57) := by
  cases p with
  | none => intro c hc; cases hc
  | some n =>
    intro c hc
    simp [portText] at hc
    rcases hc with hc | hc
    · exact .inl hc
    · exact .inr (digits_chars n c hc)

theorem pathText_chars (p : Option (Bytes × Option Bytes)) (h : PathOk p) : 0 ∉ pathText p := by
  match p, h with
  | none, _ => simp [pathText]
  | some (db, none), ⟨_, h2⟩ => intro hx; have := h2 0 hx; simp at this
  | some (db, some rel), ⟨_, h2, _, h4⟩ =>
    intro hx
    simp [pathText] at hx
    rcases hx with hx | hx
    · have := h2 0 hx; simp at this
    · have := h4 0 hx; simp at this

theorem cut_text (a : Address) (ha : a.Ok) : cut a.text = a.text := by
  refine (before_all ?_).1
  intro h0
  simp only [Address.text, List.mem_append, List.mem_singleton] at h0
  rcases h0 with (((((h0 | h0) | h0) | h0) | h0) | h0) | h0
  · cases hs : a.scheme with
    | none => rw [hs] at h0; cases h0
    | some x =>
      rw [hs] at h0
      cases x with
      | zero => revert h0; simp only [schemeText]; decide
      | succ x => revert h0; simp only [schemeText]; decide
  · match hu : a.user with
    | none => rw [hu] at h0; cases h0
    | some (n, none) =>
      rw [hu] at h0
      obtain ⟨_, h2, _⟩ := ha.user n none hu
      simp [userText] at h0
      have := h2 0 h0; simp at this
    | some (n, some p) =>
      rw [hu] at h0
      obtain ⟨_, h2, h3⟩ := ha.user n (some p) hu
      simp [userText] at h0
      rcases h0 with h0 | h0
      · have := h2 0 h0; simp at this
      · have := h3 p rfl 0 h0; simp at this
  · cases hh : a.host with
    | plain n =>
      rw [hh] at h0
      have := ha.host.2.1 n hh 0 h0; simp at this
    | bracket n =>
      rw [hh] at h0
      simp [Host.text] at h0
      have := ha.host.2.2 n hh 0 h0; simp at this
  · have := portText_chars a.port 0 h0; omega
  · cases h0
  · exact pathText_chars _ ha.path h0
  · exact argsPart_without _ ha.args 0 (by decide) (by decide) h0

theorem noAt_rest (a : Address) (ha : a.Ok) (hu : a.user = none) :
    64 ∉ a.host.text ++ portText a.port ++ 47 :: (pathText a.path ++ argsPart a.args) := by
  obtain ⟨h1, h2⟩ := ha.noAt hu
  intro h0
  simp only [List.mem_append, List.mem_cons] at h0
  rcases h0 with (h0 | h0) | h0 | h0 | h0
  · cases hh : a.host with
    | plain n => rw [hh] at h0 h1; exact h1 h0
    | bracket n => rw [hh] at h0 h1; simp [Host.text] at h0; exact h1 h0
  · have := portText_chars a.port 64 h0; omega
  · cases h0
  · exact h2 h0
  · exact argsPart_without _ ha.args 64 (by decide) (by decide) h0

end Verif.Net.Uri
