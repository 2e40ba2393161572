import Verif.Net.UriProofs
set_option linter.unusedSimpArgs false
set_option linter.unusedVariables false
/-!
# C84: addresses and request targets
-/
namespace Verif.Net.Uri
open Verif

/-- an argument that is percent-encoded is read back, whatever its bytes -/
theorem C84_percent (s : Bytes) (h : IsBytes s) : pctDecode (pctEncode s) = .ok s ∧ (∀ c ∈ pctEncode s, unreserved c ∨ c = 37) :=
  ⟨pct_back s h, pct_chars h⟩

theorem hexVal_iff (c v : Nat) : hexVal c = some v ↔ HexDigit c v := by
  constructor
  · intro h
    unfold hexVal at h
    split at h
    · cases h; have := HexDigit.digit (c - 48) (by omega); rwa [show 48 + (c - 48) = c by omega] at this
    split at h
    · cases h; have := HexDigit.upper (c - 65) (by omega); rwa [show 65 + (c - 65) = c by omega, Nat.add_comm] at this
    split at h
    · cases h; have := HexDigit.lower (c - 97) (by omega); rwa [show 97 + (c - 97) = c by omega, Nat.add_comm] at this
    · cases h
  · intro h
    cases h with
    | digit n hn => unfold hexVal; rw [if_pos (by omega)]; congr 1; omega
    | upper n hn => unfold hexVal; rw [if_neg (by omega), if_pos (by omega)]; congr 1; omega
    | lower n hn => unfold hexVal; rw [if_neg (by omega), if_neg (by omega), if_pos (by omega)]; congr 1; omega

theorem pct_bind {f : Bytes → Bytes} {r : Res Bytes} {s : Bytes} : (r.bind fun x => .ok (f x)) = .ok s ↔ ∃ x, r = .ok x ∧ s = f x := by
  cases r with
  | error x => simp [Except.bind]
  | ok x => simp [Except.bind, eq_comm]

theorem pct_not37 {c : Nat} (hc : c ≠ 37) (t s : Bytes) : pctDecode (c :: t) = .ok s ↔ ∃ r, pctDecode t = .ok r ∧ s = c :: r := by
  cases t with
  | nil => simp [pctDecode, hc, eq_comm]
  | cons a t =>
    cases t with
    | nil =>
      have e : pctDecode [c, a] = (pctDecode [a]).bind fun r => .ok (c :: r) := by conv => lhs; rw [pctDecode, if_neg hc]
      rw [e]; exact pct_bind
    | cons b t => rw [pctDecode, if_neg hc]; exact pct_bind

theorem Pct.not37 {c : Nat} (hc : c ≠ 37) {t s : Bytes} : Pct (c :: t) s ↔ ∃ r, Pct t r ∧ s = c :: r := by
  constructor
  · intro h
    cases h with
    | plain _ h => exact ⟨_, h, rfl⟩
    | coded _ _ _ => exact absurd rfl hc
  · rintro ⟨r, h, rfl⟩; exact .plain hc h

/-- An argument is read as what its text stands for, and it is an error if the text stands for nothing. -/
theorem C84_decode (t s : Bytes) : pctDecode t = .ok s ↔ Pct t s := by
  induction h : t.length using Nat.strongRecOn generalizing t s with
  | ind n ih =>
    cases t with
    | nil => exact ⟨fun h => by cases h; exact .nil, fun h => by cases h; rfl⟩
    | cons c t =>
      by_cases hc : c = 37
      · subst hc
        cases t with
        | nil => exact ⟨fun h => by simp [pctDecode] at h, fun h => by cases h with | plain h _ => exact absurd rfl h⟩
        | cons a t =>
          cases t with
          | nil => exact ⟨fun h => by simp [pctDecode] at h, fun h => by cases h with | plain h _ => exact absurd rfl h⟩
          | cons b t =>
            have ih' := fun s => ih t.length (by simp at h; omega) t s rfl
            rw [pctDecode, if_pos rfl]
            constructor
            · intro h
              unfold hexByte at h
              cases ha : hexVal a with
              | none => rw [ha] at h; cases h
              | some x =>
                cases hb : hexVal b with
                | none => rw [ha, hb] at h; cases h
                | some y =>
                  rw [ha, hb] at h
                  simp only [Except.bind] at h
                  obtain ⟨r, h1, rfl⟩ := pct_bind.1 (show ((pctDecode t).bind fun r => .ok ((x * 16 + y) :: r)) = .ok s from h)
                  rw [Nat.mul_comm]
                  exact .coded ((hexVal_iff a x).1 ha) ((hexVal_iff b y).1 hb) ((ih' _).1 h1)
            · intro h
              cases h with
              | plain h _ => exact absurd rfl h
              | @coded _ _ x y _ s' ha hb hr =>
                unfold hexByte
                rw [(hexVal_iff a x).2 ha, (hexVal_iff b y).2 hb, (ih' _).2 hr]
                simp only [Except.bind, Nat.mul_comm]
      · rw [pct_not37 hc, Pct.not37 hc]
        have ih' := fun s => ih t.length (by simp at h; omega) t s rfl
        simp only [ih']

example : Pct (str "a%c3%A9+%7e%") [97] → False := by
  intro h; have := (C84_decode _ _).2 h; revert this; decide
example : Pct (str "a%c3%A9+%7e") [97, 195, 169, 43, 126] := (C84_decode _ _).1 (by decide)

/-- An address as it is written is read: every part goes to the option it stands for (and to no other one), arguments are
percent-decoded, and what is written later replaces what was written before; options that are not mentioned keep their value. -/
theorem C84_address (a : Address) (ha : a.Ok) (e : Ep) (hp : a.scheme = none → e.proto ≠ 2) :
    ∃ e', uriParse e a.text = .ok e' ∧ (∀ k, e'.s k = (lastOf a.sets k).getD (e.s k))
      ∧ e'.proto = (a.scheme.map Int.ofNat).getD e.proto ∧ e'.port = (a.port.map Int.ofNat).getD e.port ∧ e'.debug = e.debug := by
  refine ⟨withPort (setAll (withProto e a.scheme) a.sets) a.port, ?_, ?_, ?_, ?_, ?_⟩
  · have hne : a.text ≠ [] := by
      intro h; have := congrArg List.length h; simp [Address.text] at this
    have et : a.text = schemeText a.scheme ++ (userText a.user ++ (a.host.text ++ portText a.port ++ 47 :: (pathText a.path ++ argsPart a.args))) := by
      simp [Address.text]
    unfold uriParse
    rw [if_neg hne, cut_text a ha]
    conv => lhs; arg 1; arg 2; rw [et]
    rw [parseProtocol_text a.scheme ha.scheme _ (by intro h; have := ha.noScheme h; rw [et, h] at this; exact this)]
    simp only [Except.bind]
    rw [parseUser_text a.user ha.user _ (noAt_rest a ha)]
    simp only []
    have hproto : (setAll (withProto (e.set (str "uri") a.text) a.scheme) (userSets a.user)).proto ≠ 2 := by
      rw [(setAll_num _ _).1]
      cases hs : a.scheme with
      | none => exact hp hs
      | some x => rcases ha.scheme x hs with h | h <;> subst h <;> simp [withProto]
    rw [if_pos hproto, parseHost_text a ha]
    simp only []
    rw [parsePath_text a.path ha.path _ _ (args_head a.args)]
    simp only []
    rw [parseArgs_text a.args _ ha.args]
    have e1 : ∀ (x : Ep) (k v : Bytes), x.set k v = setAll x [(k, v)] := fun _ _ _ => rfl
    rw [e1 e, e1 (setAll _ _) (str "host"), ← withProto_set, ← setAll_append, ← setAll_append]
    rw [withPort_set, ← setAll_append, ← setAll_append]
    simp only [Address.sets, List.append_assoc]
  · intro k
    have : ∀ x : Ep, (withPort x a.port).s = x.s := by intro x; cases a.port <;> rfl
    rw [this, setAll_s]
    have : (withProto e a.scheme).s = e.s := by cases a.scheme <;> rfl
    rw [this]
  · have : ∀ x : Ep, (withPort x a.port).proto = x.proto := by intro x; cases a.port <;> rfl
    rw [this, (setAll_num _ _).1]
    cases a.scheme <;> rfl
  · cases h : a.port with
    | some p => rfl
    | none =>
      simp only [withPort]
      rw [(setAll_num _ _).2.1]
      cases a.scheme <;> rfl
  · have : ∀ x : Ep, (withPort x a.port).debug = x.debug := by intro x; cases a.port <;> rfl
    rw [this, (setAll_num _ _).2.2]
    cases a.scheme <;> rfl

/-- `https://joe:pw@[::1]:80/db/t?format=a%26b&format=x` -/
def sampleAddress : Address :=
  ⟨some 1, some (str "joe", some (str "p:w")), .bracket (str "::1"), some 80, some (str "db", some (str "t")),
   [(str "format", str "a&b"), (str "columns", str "c, d"), (str "format", str "x")]⟩

theorem sampleAddress_ok : sampleAddress.Ok where
  scheme := by intro x h; simp [sampleAddress] at h; omega
  user := by
    intro u p h
    simp only [sampleAddress, Option.some.injEq, Prod.mk.injEq] at h
    obtain ⟨rfl, rfl⟩ := h
    refine ⟨by decide, by unfold Without; decide, ?_⟩
    intro s h; cases h; unfold Without; decide
  host := ⟨by decide, by (intro n h; cases h), by (intro n h; cases h; unfold Without; decide)⟩
  port := by intro p h; simp [sampleAddress] at h; omega
  path := by unfold sampleAddress PathOk Without; decide
  args := by unfold sampleAddress ArgsOk IsBytes; decide
  noAt := by intro h; cases h
  noScheme := by intro h; cases h

example : sampleAddress.text = str "https://joe:p:w@[::1]:80/db/t?format=a%26b&columns=c%2C%20d&format=x" := by
  have e80 : Json.Text.decDigits 80 = [56, 48] := by simp [Json.Text.decDigits]
  simp only [Address.text, sampleAddress, portText, e80]; decide
example : ∃ e', uriParse {} sampleAddress.text = .ok e' ∧ e'.s (str "user") = str "joe" ∧ e'.s (str "secret") = str "p:w"
    ∧ e'.s (str "host") = str "::1" ∧ e'.s (str "relation") = str "t" ∧ e'.s (str "format") = str "x"
    ∧ e'.s (str "columns") = str "c, d" ∧ e'.proto = 1 ∧ e'.port = 80 := by
  obtain ⟨e', h, hs, h1, h2, h3⟩ := C84_address sampleAddress sampleAddress_ok {} (by intro h; cases h)
  refine ⟨e', h, ?_, ?_, ?_, ?_, ?_, ?_, h1, h2⟩ <;> (rw [hs]; decide)

/-- A request for a database or a relation: `/v1/db/<db>[/<relation>][?name=value&...]` -/
theorem C84_target (p : Option (Bytes × Option Bytes)) (args : List (Bytes × Bytes)) (hp : PathOk p) (ha : ArgsOk args) (e : Ep) :
    ∃ e', uriParseEndpoint e (str "/v1/db/" ++ pathText p ++ argsPart args) = .ok e'
      ∧ (∀ k, e'.s k = (lastOf ([(str "uri", str "/v1/db/" ++ pathText p ++ argsPart args)] ++ pathSets p ++ args) k).getD (e.s k))
      ∧ e'.proto = e.proto ∧ e'.port = e.port ∧ e'.debug = e.debug := by
  refine ⟨setAll e ([(str "uri", str "/v1/db/" ++ pathText p ++ argsPart args)] ++ pathSets p ++ args), ?_, setAll_s _ _, setAll_num _ _⟩
  have h0 : 0 ∉ str "/v1/db/" ++ pathText p ++ argsPart args := by
    intro h
    simp only [List.mem_append] at h
    rcases h with (h | h) | h
    · revert h; decide
    · exact pathText_chars _ hp h
    · exact argsPart_without _ ha 0 (by decide) (by decide) h
  unfold uriParseEndpoint
  have hc : cut (str "/v1/db/" ++ pathText p ++ argsPart args) = str "/v1/db/" ++ pathText p ++ argsPart args := (before_all h0).1
  have hst : starts (str "/v1/db/") (str "/v1/db/" ++ pathText p ++ argsPart args) = true := by
    rw [List.append_assoc]; exact starts_append _ _
  simp only [hst, if_true, hc]
  rw [List.append_assoc, List.drop_append_of_le_length (by decide), show (str "/v1/db/").drop 7 = [] by decide, List.nil_append]
  rw [parsePath_text p hp _ _ (args_head args)]
  simp only [Except.bind]
  rw [parseArgs_text args _ ha, ← setAll_append]
  rfl

/-- A request for a service, and for nothing that the server does not have: the target of every request that is read starts with
/v1/db/, or is exactly that of the service `backup` or `repl`, which is then the only option set besides the text. -/
theorem C84_service (e : Ep) :
    (∀ n ∈ [str "backup", str "repl"], ∃ e', uriParseEndpoint e (str "/v1/" ++ n) = .ok e' ∧
      (∀ k, e'.s k = (lastOf [(str "uri", str "/v1/" ++ n), (str "service", n)] k).getD (e.s k)) ∧
      e'.proto = e.proto ∧ e'.port = e.port ∧ e'.debug = e.debug) ∧
    (∀ t e', uriParseEndpoint e t = .ok e' → (∃ r, t = str "/v1/db/" ++ r) ∨ t = str "/v1/" ++ str "backup" ∨ t = str "/v1/" ++ str "repl") := by
  constructor
  · intro n hn
    refine ⟨(e.set (str "uri") (str "/v1/" ++ n)).set (str "service") n, ?_, fun k => ?_, rfl, rfl, rfl⟩
    · simp only [List.mem_cons, List.not_mem_nil, or_false] at hn
      rcases hn with rfl | rfl <;> rfl
    · exact setAll_s [(str "uri", str "/v1/" ++ n), (str "service", n)] e k
  · intro t e' h
    unfold uriParseEndpoint at h
    simp only [] at h
    split at h
    · rename_i hs
      left
      refine ⟨t.drop 7, ?_⟩
      unfold starts at hs
      have hs := of_decide_eq_true hs
      conv => lhs; rw [← List.take_append_drop 7 t]
      rw [show List.take 7 t = str "/v1/db/" from hs]
    split at h
    · right; left; assumption
    split at h
    · right; right; assumption
    · cases h

/-- What the client itself writes as the target of a request (C82) is read by the server as the same database, relation and
arguments, if there is a database and no service, and no value contains `&`, `%` or a zero byte. -/
theorem C84_own_request (o : Out) (e : Ep) (hs : o.service = []) (hdb : o.db ≠ []) (hdbw : Without [0, 47, 63] o.db)
    (hrel : Without [0, 47, 63] o.relation)
    (hc : Without [0, 37, 38] o.columns) (ht : Without [0, 37, 38] o.timezone) (hf : Without [0, 37, 38] o.format) :
    ∃ e', uriParseEndpoint e (target o) = .ok e' ∧ e'.s (str "db") = o.db
      ∧ e'.s (str "relation") = (if o.relation = [] then e.s (str "relation") else o.relation)
      ∧ e'.s (str "columns") = (if o.columns = [] then e.s (str "columns") else o.columns)
      ∧ e'.s (str "timezone") = (if o.timezone = [] then e.s (str "timezone") else o.timezone)
      ∧ e'.s (str "format") = (if o.format = [] then e.s (str "format") else o.format)
      ∧ (∀ k, k ∉ [str "uri", str "db", str "relation", str "columns", str "timezone", str "format"] → e'.s k = e.s k)
      ∧ e'.proto = e.proto ∧ e'.port = e.port ∧ e'.debug = e.debug := by
  let raw (n v : Bytes) : List Raw := if v = [] then [] else [⟨n, v, n, v⟩]
  let l := raw (str "columns") o.columns ++ raw (str "timezone") o.timezone ++ raw (str "format") o.format
  let p : Option (Bytes × Option Bytes) := some (o.db, if o.relation = [] then none else some o.relation)
  have hpo : PathOk p := by
    by_cases hr : o.relation = []
    · simp only [p, hr, if_true]; exact ⟨hdb, hdbw⟩
    · simp only [p, hr, if_false]; exact ⟨hdb, hdbw, hr, hrel⟩
  have hraw : ∀ n v, n ∈ [str "columns", str "timezone", str "format"] → Without [0, 37, 38] v → ∀ a ∈ raw n v, a.Ok := by
    intro n v hn hv a hm
    by_cases hve : v = []
    · simp [raw, hve] at hm
    · simp [raw, hve] at hm
      subst hm
      have hn' : n ≠ [] ∧ 61 ∉ n ∧ 37 ∉ n ∧ n ∈ strKeys ∧ n ≠ str "uri" := by
        revert n; decide
      exact ⟨hn'.1, hn'.2.1, fun h => by have := hv 38 h; simp at this, pct_plain _ hn'.2.2.1,
        pct_plain _ (fun h => by have := hv 37 h; simp at this), hn'.2.2.2.1, hn'.2.2.2.2⟩
  have hl : ∀ a ∈ l, a.Ok := by
    intro a hm
    simp only [l, List.mem_append] at hm
    rcases hm with (hm | hm) | hm
    · exact hraw _ _ (by decide) hc a hm
    · exact hraw _ _ (by decide) ht a hm
    · exact hraw _ _ (by decide) hf a hm
  have htext : target o = str "/v1/db/" ++ (pathText p ++ (if l = [] then [] else 63 :: rawText l)) := by
    have e47 : str "/v1/db/" = 47 :: Verif.Net.str "v1/db/" := by decide
    have ek : ∀ (s : String), Verif.Net.str s = str s := fun _ => rfl
    rw [e47]
    simp only [target, hs, hdb, ne_eq, not_true, not_false_eq_true, if_false, if_true, List.cons_append, List.append_assoc, p, l, raw,
      exportArg, ek]
    by_cases h1 : o.relation = [] <;> by_cases h2 : o.columns = [] <;> by_cases h3 : o.timezone = [] <;> by_cases h4 : o.format = [] <;>
      simp [h1, h2, h3, h4, pathText, rawText]
  have h0 : cut (target o) = target o := by
    refine (before_all ?_).1
    rw [htext]
    intro h
    simp only [List.mem_append] at h
    rcases h with h | h | h
    · revert h; decide
    · exact pathText_chars _ hpo h
    · have hz : ∀ v : Bytes, Without [0, 37, 38] v → 0 ∉ v := fun v hv h => by have := hv 0 h; simp at this
      have k1 : (0:Nat) ∉ str "columns" := by decide
      have k2 : (0:Nat) ∉ str "timezone" := by decide
      have k3 : (0:Nat) ∉ str "format" := by decide
      have hc := hz _ hc
      have ht := hz _ ht
      have hf := hz _ hf
      revert h
      simp only [l, raw]
      by_cases h2 : o.columns = [] <;> by_cases h3 : o.timezone = [] <;> by_cases h4 : o.format = [] <;>
        simp [h2, h3, h4, rawText, hc, ht, hf, k1, k2, k3]
  refine ⟨setAll (setAll (e.set (str "uri") (target o)) (pathSets p)) (l.map fun a => (a.n, a.v)), ?_, ?_, ?_, ?_, ?_, ?_, ?_, ?_⟩
  · have hst : starts (str "/v1/db/") (target o) = true := by rw [htext]; exact starts_append _ _
    unfold uriParseEndpoint
    simp only [hst, if_true, h0]
    have hd : (target o).drop 7 = pathText p ++ (if l = [] then [] else 63 :: rawText l) := by
      rw [htext, List.drop_append_of_le_length (by decide), show (str "/v1/db/").drop 7 = [] by decide]; rfl
    rw [hd, parsePath_text p hpo _ _ (by intro c t h; split at h; cases h; cases h; rfl)]
    simp only [Except.bind]
    rw [parseArgs_raw l _ hl]
  all_goals simp only [setAll_s, setAll_num, p, l, raw]
  · by_cases h1 : o.relation = [] <;> by_cases h2 : o.columns = [] <;> by_cases h3 : o.timezone = [] <;> by_cases h4 : o.format = [] <;>
      (simp only [h1, h2, h3, h4, if_true, if_false, pathSets, Ep.set]; rfl)
  · by_cases h1 : o.relation = [] <;> by_cases h2 : o.columns = [] <;> by_cases h3 : o.timezone = [] <;> by_cases h4 : o.format = [] <;>
      (simp only [h1, h2, h3, h4, if_true, if_false, pathSets, Ep.set]; rfl)
  · by_cases h1 : o.relation = [] <;> by_cases h2 : o.columns = [] <;> by_cases h3 : o.timezone = [] <;> by_cases h4 : o.format = [] <;>
      (simp only [h1, h2, h3, h4, if_true, if_false, pathSets, Ep.set]; rfl)
  · by_cases h1 : o.relation = [] <;> by_cases h2 : o.columns = [] <;> by_cases h3 : o.timezone = [] <;> by_cases h4 : o.format = [] <;>
      (simp only [h1, h2, h3, h4, if_true, if_false, pathSets, Ep.set]; rfl)
  · by_cases h1 : o.relation = [] <;> by_cases h2 : o.columns = [] <;> by_cases h3 : o.timezone = [] <;> by_cases h4 : o.format = [] <;>
      (simp only [h1, h2, h3, h4, if_true, if_false, pathSets, Ep.set]; rfl)
  · intro k hk
    simp only [List.mem_cons, List.mem_nil_iff, or_false, not_or, List.not_mem_nil] at hk
    obtain ⟨n1, n2, n3, n4, n5, n6⟩ := hk
    have m1 := Ne.symm n1; have m2 := Ne.symm n2; have m3 := Ne.symm n3; have m4 := Ne.symm n4; have m5 := Ne.symm n5; have m6 := Ne.symm n6
    by_cases h1 : o.relation = [] <;> by_cases h2 : o.columns = [] <;> by_cases h3 : o.timezone = [] <;> by_cases h4 : o.format = [] <;>
      simp [h1, h2, h3, h4, pathSets, Ep.set, lastOf, n1, m1, m2, m3, m4, m5, m6]
  · exact ⟨rfl, rfl, rfl⟩

example : target { db := str "main", relation := str "t", format := str "json", columns := str "a,b" }
    = str "/v1/db/main/t?columns=a,b&format=json" := by decide

/-! ## addresses written by the server itself -/

theorem before_no (c : Nat) : ∀ (s : Bytes), c ∉ before c s
  | [] => by simp [before]
  | x :: t => by
    have := before_no c t
    unfold before at this ⊢
    rw [List.takeWhile_cons]
    by_cases h : x = c
    · simp [h]
    · simp only [h, ne_eq, not_false_eq_true, decide_true, if_true, List.mem_cons, not_or]
      exact ⟨fun e => h e.symm, this⟩

def rawPart (l : List Raw) : Bytes := if l = [] then [] else 63 :: rawText l

theorem uriParse_raw (a : Address) (ha : a.Ok) (h0 : a.args = []) (hsc : a.scheme ≠ none) (l : List Raw) (hl : ∀ r ∈ l, r.Ok)
    (hz : 0 ∉ rawPart l) (hat : a.user = none → 64 ∉ rawPart l) (e : Ep) :
    uriParse e (a.text ++ rawPart l) = .ok (withPort (setAll (withProto (e.set (str "uri") (a.text ++ rawPart l)) a.scheme)
      (userSets a.user ++ [(str "host", a.host.name)] ++ pathSets a.path ++ l.map fun r => (r.n, r.v))) a.port) := by
  have ep : argsPart a.args = [] := by rw [h0]; rfl
  have hne : a.text ++ rawPart l ≠ [] := by
    intro h; have := congrArg List.length h; simp [Address.text] at this
  have et : a.text ++ rawPart l = schemeText a.scheme ++ (userText a.user ++ (a.host.text ++ portText a.port ++ 47 :: (pathText a.path ++ rawPart l))) := by
    simp [Address.text, ep]
  have hc : cut (a.text ++ rawPart l) = a.text ++ rawPart l := by
    refine (before_all ?_).1
    intro h
    rcases List.mem_append.1 h with h | h
    · have := cut_text a ha
      rw [← this] at h
      exact before_no 0 a.text h
    · exact hz h
  unfold uriParse
  rw [if_neg hne, hc]
  generalize hT : e.set (str "uri") (a.text ++ rawPart l) = e0
  rw [et, parseProtocol_text a.scheme ha.scheme _ (fun h => absurd h hsc)]
  simp only [Except.bind]
  rw [parseUser_text a.user ha.user _ (by
    intro hu h
    have hn := noAt_rest a ha hu
    rw [ep] at hn
    simp only [List.mem_append, List.mem_cons, List.append_nil] at h hn
    rcases h with h | h | h | h
    · exact hn (.inl h)
    · cases h
    · exact hn (.inr (.inr h))
    · exact hat hu h)]
  simp only []
  have hproto : (setAll (withProto e0 a.scheme) (userSets a.user)).proto ≠ 2 := by
    rw [(setAll_num _ _).1]
    cases hs : a.scheme with
    | none => exact absurd hs hsc
    | some x => rcases ha.scheme x hs with h | h <;> subst h <;> simp [withProto]
  rw [if_pos hproto, parseHost_text a ha]
  simp only []
  rw [parsePath_text a.path ha.path _ _ (by intro c t h; unfold rawPart at h; split at h; cases h; cases h; rfl)]
  simp only []
  unfold rawPart
  rw [parseArgs_raw l _ hl]
  have e1 : ∀ (x : Ep) (k v : Bytes), x.set k v = setAll x [(k, v)] := fun _ _ _ => rfl
  rw [e1 (setAll _ _) (str "host"), withPort_set, withPort_set, ← setAll_append, ← setAll_append, ← setAll_append]
  simp only [List.append_assoc]

/-- Text without the characters that separate the parts of an address. -/
def Plain (s : Bytes) : Prop := Without [0, 37, 38, 44, 47, 58, 63, 64, 91] s

/-- The address that is written for a connection (over http or https, without a secret, to a host that is not an IPv6 address, with
plain parts) is read back as that connection. -/
theorem C84_export (e e0 : Ep) (hproto : e.proto = 0 ∨ e.proto = 1) (hport : 0 ≤ e.port ∧ e.port < 2 ^ 31)
    (hsec : e.s (str "secret") = []) (hhost : e.s (str "host") ≠ []) (hrel : e.s (str "db") = [] → e.s (str "relation") = [])
    (hpl : ∀ k ∈ [str "user", str "host", str "db", str "relation", str "columns", str "timezone", str "format"], Plain (e.s k)) :
    ∃ e', uriParse e0 (uriExport e) = .ok e' ∧ e'.proto = e.proto ∧ e'.port = e.port
      ∧ ∀ k ∈ [str "user", str "host", str "db", str "relation", str "columns", str "timezone", str "format"],
          e'.s k = if e.s k = [] then e0.s k else e.s k := by
  have hw : ∀ (s : Bytes) (cs : Bytes), Plain s → (∀ c ∈ cs, c ∈ [0, 37, 38, 44, 47, 58, 63, 64, 91]) → Without cs s :=
    fun s cs h hcs c hc hm => h c hc (hcs c hm)
  have pn : ∀ (s : Bytes) (c : Nat), Plain s → c ∈ [0, 37, 38, 44, 47, 58, 63, 64, 91] → c ∉ s := fun s c h hc hm => h c hm hc
  let raw (n v : Bytes) : List Raw := if v = [] then [] else [⟨n, v, n, v⟩]
  let l := raw (str "columns") (e.s (str "columns")) ++ raw (str "timezone") (e.s (str "timezone")) ++ raw (str "format") (e.s (str "format"))
  let u : Option (Bytes × Option Bytes) := if e.s (str "user") = [] then none else some (e.s (str "user"), none)
  let p : Option (Bytes × Option Bytes) := if e.s (str "db") = [] then none
    else some (e.s (str "db"), if e.s (str "relation") = [] then none else some (e.s (str "relation")))
  let a : Address := ⟨some e.proto.toNat, u, .plain (e.s (str "host")), some e.port.toNat, p, []⟩
  have h1 := hpl (str "user") (by decide)
  have h2 := hpl (str "host") (by decide)
  have h3 := hpl (str "db") (by decide)
  have h4 := hpl (str "relation") (by decide)
  have h5 := hpl (str "columns") (by decide)
  have h6 := hpl (str "timezone") (by decide)
  have h7 := hpl (str "format") (by decide)
  have hpo : PathOk p := by
    by_cases hd : e.s (str "db") = []
    · simp only [p, hd, if_true]; trivial
    · by_cases hr : e.s (str "relation") = []
      · simp only [p, hd, hr, if_true, if_false]; exact ⟨hd, hw _ _ h3 (by decide)⟩
      · simp only [p, hd, hr, if_false]; exact ⟨hd, hw _ _ h3 (by decide), hr, hw _ _ h4 (by decide)⟩
  have ha : a.Ok :=
    { scheme := by intro x h; simp only [a, Option.some.injEq] at h; omega
      user := by
        intro n q h
        simp only [a, u] at h
        split at h
        · cases h
        · rename_i hne
          cases h
          exact ⟨hne, hw _ _ h1 (by decide), by intro s h; cases h⟩
      host := ⟨hhost, by intro n h; cases h; exact hw _ _ h2 (by decide), by intro n h; cases h⟩
      port := by intro x h; simp only [a, Option.some.injEq] at h; omega
      path := hpo
      args := by intro x hx; cases hx
      noAt := by
        intro _
        refine ⟨pn _ _ h2 (by decide), ?_⟩
        simp only [a, p]
        have m1 := pn _ 64 h3 (by decide)
        have m2 := pn _ 64 h4 (by decide)
        by_cases hd : e.s (str "db") = [] <;> by_cases hr : e.s (str "relation") = [] <;> simp [hd, hr, pathText, m1, m2]
      noScheme := by intro h; cases h }
  have hraw : ∀ n v, n ∈ [str "columns", str "timezone", str "format"] → Plain v → ∀ a ∈ raw n v, a.Ok := by
    intro n v hn hv a hm
    by_cases hve : v = []
    · simp [raw, hve] at hm
    · simp [raw, hve] at hm
      subst hm
      have hn' : n ≠ [] ∧ 61 ∉ n ∧ 37 ∉ n ∧ n ∈ strKeys ∧ n ≠ str "uri" := by
        revert n; decide
      exact ⟨hn'.1, hn'.2.1, pn _ _ hv (by decide), pct_plain _ hn'.2.2.1,
        pct_plain _ (pn _ _ hv (by decide)), hn'.2.2.2.1, hn'.2.2.2.2⟩
  have hl : ∀ a ∈ l, a.Ok := by
    intro a hm
    simp only [l, List.mem_append] at hm
    rcases hm with (hm | hm) | hm
    · exact hraw _ _ (by decide) h5 a hm
    · exact hraw _ _ (by decide) h6 a hm
    · exact hraw _ _ (by decide) h7 a hm
  have hno : ∀ c, c ∈ [0, 64] → c ∉ rawPart l := by
    intro c hc
    have q1 : c ∉ str "columns" := by revert c; decide
    have q2 : c ∉ str "timezone" := by revert c; decide
    have q3 : c ∉ str "format" := by revert c; decide
    have hc' : c ∈ [0, 37, 38, 44, 47, 58, 63, 64, 91] := by revert c; decide
    have d1 : c ≠ 63 ∧ c ≠ 61 ∧ c ≠ 38 := by revert c; decide
    have m1 := pn _ _ h5 hc'
    have m2 := pn _ _ h6 hc'
    have m3 := pn _ _ h7 hc'
    simp only [rawPart, l, raw]
    by_cases h2 : e.s (str "columns") = [] <;> by_cases h3 : e.s (str "timezone") = [] <;> by_cases h4 : e.s (str "format") = [] <;>
      simp [h2, h3, h4, rawText, q1, q2, q3, m1, m2, m3, d1]
  have hport' : Json.Text.intText (asInt e.port) = Json.Text.decDigits e.port.toNat := by
    have : asInt e.port = e.port := by unfold asInt; omega
    rw [this]
    unfold Json.Text.intText
    rw [if_neg (by omega)]
    try (congr 1; omega)
  have ht : uriExport e = a.text ++ rawPart l := by
    have hp2 : e.proto ≠ 2 := by omega
    have hsch : (if e.proto = 0 then str "http://" else if e.proto = 1 then str "https://" else if e.proto = 2 then str "amelie://" else [])
        = schemeText (some e.proto.toNat) := by
      rcases hproto with h | h <;> rw [h] <;> rfl
    have eu : (if e.s (str "user") ≠ [] then e.s (str "user") ++ (if e.s (str "secret") ≠ [] then 58 :: e.s (str "user") else []) ++ [64] else [])
        = userText u := by
      by_cases hu : e.s (str "user") = [] <;> simp [u, hu, hsec, userText]
    have ed : (if e.s (str "db") ≠ [] then
        e.s (str "db") ++ (if e.s (str "relation") ≠ [] then 47 :: e.s (str "relation") else []) else []) = pathText p := by
      by_cases hd : e.s (str "db") = [] <;> by_cases hr : e.s (str "relation") = [] <;> simp [hd, hr, p, pathText]
    have ex : exportArgs e ([] ++ [str "columns", str "timezone", str "format"]) = rawPart l := by
      simp only [exportArgs, List.nil_append, List.foldl_cons, List.foldl_nil, exportArg, rawPart, l, raw]
      by_cases h2 : e.s (str "columns") = [] <;> by_cases h3 : e.s (str "timezone") = [] <;> by_cases h4 : e.s (str "format") = [] <;>
        simp [h2, h3, h4, rawText]
    unfold uriExport
    rw [hsch, eu, ed, if_pos hp2, if_pos hhost, if_neg hp2, ex, hport']
    simp only [Address.text, a, Host.text, portText, argsPart, if_true, List.append_nil, List.append_assoc, List.cons_append, List.nil_append]
  refine ⟨_, by rw [ht]; exact uriParse_raw a ha rfl (by intro h; cases h) l hl (hno 0 (by decide)) (fun _ => hno 64 (by decide)) e0, ?_, ?_, ?_⟩
  · simp only [withPort, a, setAll_num, withProto]; omega
  · simp only [withPort, a, setAll_num, withProto]; omega
  · intro k hk
    have hne : k ≠ str "uri" := by revert k; decide
    simp only [withPort, a, setAll_s, withProto]
    have e0s : (e0.set (str "uri") ((⟨some e.proto.toNat, u, .plain (e.s (str "host")), some e.port.toNat, p, []⟩ : Address).text ++ rawPart l)).s k = e0.s k := by
      simp [Ep.set, hne]
    rw [e0s]
    simp only [u, p, l, raw, Host.name]
    simp only [List.mem_cons, List.not_mem_nil, or_false] at hk
    by_cases g1 : e.s (str "user") = [] <;> by_cases g3 : e.s (str "db") = [] <;> by_cases g4 : e.s (str "relation") = [] <;>
      by_cases g5 : e.s (str "columns") = [] <;> by_cases g6 : e.s (str "timezone") = [] <;> by_cases g7 : e.s (str "format") = [] <;>
      (first
        | exact absurd (hrel g3) g4
        | (rcases hk with rfl | rfl | rfl | rfl | rfl | rfl | rfl <;>
            simp only [g1, g3, g4, g5, g6, g7, hhost, if_true, if_false, userSets, pathSets] <;> rfl))

/-- an endpoint that can be written -/
def sampleEp : Ep :=
  { proto := 1
    port := 3485
    s := fun k => if k = str "host" then str "db.example" else if k = str "user" then str "joe" else if k = str "db" then str "main"
      else if k = str "format" then str "json" else [] }

example : ∃ e', uriParse {} (uriExport sampleEp) = .ok e' ∧ e'.s (str "host") = str "db.example" ∧ e'.s (str "format") = str "json" := by
  obtain ⟨e', h, _, _, hs⟩ := C84_export sampleEp {} (by decide) (by decide) (by decide) (by decide) (by decide) (by unfold Plain Without; decide)
  refine ⟨e', h, ?_, ?_⟩ <;> (rw [hs _ (by decide)]; decide)

/-! ## any text -/

theorem pct_ub : ∀ (s : Bytes), pctDecode s ≠ .error .ub
  | [] => by intro h; cases h
  | [c] => by simp only [pctDecode]; split <;> (intro h; cases h)
  | [c, d] => by
    have := pct_ub [d]
    simp only [pctDecode]
    split
    · intro h; cases h
    · cases hd : (if d = 37 then Except.error Fail.err else Except.ok [d] : Res Bytes) with
      | ok x => intro h; cases h
      | error x =>
        intro h
        simp only [Except.bind] at h
        cases h
        simp only [pctDecode] at this
        exact this hd
  | c :: a :: b :: t => by
    have i1 := pct_ub t
    have i2 := pct_ub (a :: b :: t)
    rw [pctDecode]
    split
    · cases hh : hexByte a b with
      | error x =>
        intro h
        simp only [Except.bind] at h
        cases h
        unfold hexByte at hh
        split at hh <;> cases hh
      | ok v =>
        cases hd : pctDecode t with
        | ok x => intro h; cases h
        | error x => intro h; simp only [Except.bind] at h; cases h; exact i1 hd
    · cases hd : pctDecode (a :: b :: t) with
      | ok x => intro h; cases h
      | error x => intro h; simp only [Except.bind] at h; cases h; exact i2 hd

theorem argSet_ub (e : Ep) (n v : Bytes) (h : argSet e n v = .error .ub) : n = str "uri" := by
  unfold argSet at h
  by_cases hn : n = str "uri"
  · exact hn
  · rw [if_neg hn] at h
    repeat' split at h
    all_goals cases h

/-- a place in the text where a name stands that decodes to `uri` -/
def NamesUri (s : Bytes) : Prop := ∃ a n b, s = a ++ n ++ 61 :: b ∧ pctDecode n = .ok (str "uri")

theorem namesUri_suffix (p s : Bytes) (h : NamesUri s) : NamesUri (p ++ s) := by
  obtain ⟨a, n, b, h1, h2⟩ := h
  exact ⟨p ++ a, n, b, by rw [h1]; simp, h2⟩

theorem before_from (c : Nat) (s : Bytes) : before c s ++ fromC c s = s := List.takeWhile_append_dropWhile
theorem fromC_head (c : Nat) : ∀ (s : Bytes), fromC c s ≠ [] → fromC c s = c :: (fromC c s).drop 1
  | [], h => absurd rfl h
  | x :: t, h => by
    have ih := fromC_head c t
    unfold fromC at h ih ⊢
    rw [List.dropWhile_cons] at h ⊢
    by_cases hx : x = c
    · simp [hx]
    · simp only [hx, ne_eq, not_false_eq_true, decide_true, if_true] at h ⊢
      exact ih h

theorem argsLoop_ub : ∀ (f : Nat) (e : Ep) (s : Bytes), s.length < f → argsLoop f e s = .error .ub → NamesUri s
  | 0, _, _, hf, _ => absurd hf (by omega)
  | f + 1, e, s, hf, h => by
    simp only [argsLoop] at h
    by_cases h1 : fromC 61 s = []
    · rw [if_pos h1] at h; cases h
    rw [if_neg h1] at h
    by_cases h2 : before 61 s = []
    · rw [if_pos h2] at h; cases h
    rw [if_neg h2] at h
    have es : s = before 61 s ++ 61 :: (fromC 61 s).drop 1 := by rw [← fromC_head 61 s h1, before_from]
    cases hn : pctDecode (before 61 s) with
    | error x => rw [hn] at h; simp only [Except.bind] at h; cases h; exact absurd hn (pct_ub _)
    | ok n =>
    rw [hn] at h; simp only [Except.bind] at h
    cases hv : pctDecode (before 38 ((fromC 61 s).drop 1)) with
    | error x => rw [hv] at h; simp only [] at h; cases h; exact absurd hv (pct_ub _)
    | ok v =>
    rw [hv] at h; simp only [] at h
    cases ha : argSet e n v with
    | error x =>
      rw [ha] at h; simp only [] at h; cases h
      have := argSet_ub e n v ha
      subst this
      exact ⟨[], before 61 s, _, by simpa using es, hn⟩
    | ok e' =>
      rw [ha] at h; simp only [] at h
      split at h
      · cases h
      · rename_i h3
        have e3 : (fromC 61 s).drop 1 = before 38 ((fromC 61 s).drop 1) ++ 38 :: (fromC 38 ((fromC 61 s).drop 1)).drop 1 := by
          rw [← fromC_head 38 _ h3, before_from]
        have l1 := congrArg List.length es
        have l2 := congrArg List.length e3
        simp only [List.length_append, List.length_cons] at l1 l2
        have := argsLoop_ub f e' _ (by omega) h
        have e4 : s = (before 61 s ++ 61 :: before 38 ((fromC 61 s).drop 1) ++ [38]) ++ (fromC 38 ((fromC 61 s).drop 1)).drop 1 := by
          conv => lhs; rw [es, e3]
          simp
        rw [e4]
        exact namesUri_suffix _ _ this

theorem parseArgs_ub (e : Ep) (s : Bytes) (h : parseArgs e s = .error .ub) : NamesUri s := by
  unfold parseArgs at h
  split at h
  · cases h
  · rename_i hs
    split at h
    · cases h
    · cases s with
      | nil => exact absurd rfl hs
      | cons c t =>
        have := argsLoop_ub _ e t (by simp) h
        exact namesUri_suffix [c] t this

/-- what is left is the end of what there was -/
def Tail (r s : Bytes) : Prop := ∃ p, s = p ++ r
theorem Tail.trans {a b c : Bytes} (h1 : Tail a b) (h2 : Tail b c) : Tail a c := by
  obtain ⟨p, rfl⟩ := h1; obtain ⟨q, rfl⟩ := h2; exact ⟨q ++ p, by simp⟩
theorem tail_drop (n : Nat) (s : Bytes) : Tail (s.drop n) s := ⟨s.take n, by simp⟩
theorem tail_from (c : Nat) (s : Bytes) : Tail (fromC c s) s := ⟨before c s, (before_from c s).symm⟩
theorem tail_dropWhile (p : Nat → Bool) (s : Bytes) : Tail (s.dropWhile p) s := ⟨s.takeWhile p, by simp⟩
theorem tail_self (s : Bytes) : Tail s s := ⟨[], rfl⟩

theorem parsePath_tail (e : Ep) (s : Bytes) : (∃ x r, parsePath e s = .ok (x, r) ∧ Tail r s) ∨ parsePath e s = .error .err := by
  unfold parsePath
  simp only []
  have t1 := tail_dropWhile pathChar s
  have t2 := (tail_drop 1 _).trans t1
  have t3 := (tail_dropWhile pathChar ((s.dropWhile pathChar).drop 1)).trans t2
  have t4 := (tail_drop 1 _).trans t3
  split
  · exact .inl ⟨_, _, rfl, tail_self _⟩
  split
  · exact .inl ⟨_, _, rfl, tail_self _⟩
  split
  · exact .inl ⟨_, _, rfl, t1⟩
  split
  · exact .inl ⟨_, _, rfl, t2⟩
  split
  · exact .inr rfl
  split
  · exact .inl ⟨_, _, rfl, t3⟩
  · exact .inl ⟨_, _, rfl, t4⟩

theorem portLoop_tail : ∀ (v : Nat) (s : Bytes) (p : Nat) (r : Bytes), portLoop v s = some (p, r) → Tail r s
  | v, [], p, r, h => by cases h; exact tail_self _
  | v, c :: t, p, r, h => by
    simp only [portLoop] at h
    split at h
    · split at h
      · exact (portLoop_tail _ t p r h).trans (tail_drop 1 (c :: t))
      · cases h
    · cases h; exact tail_self _

theorem parseHost_tail (e : Ep) (s : Bytes) : (∃ x r, parseHost e s = .ok (x, r) ∧ Tail r s) ∨ parseHost e s = .error .err := by
  have hname : (∃ x r, parseName s = .ok (x, r) ∧ Tail r s) ∨ parseName s = .error .err := by
    unfold parseName
    simp only []
    split
    · split
      · exact .inr rfl
      · split
        · exact .inr rfl
        · exact .inl ⟨_, _, rfl, (tail_drop 1 _).trans ((tail_from _ _).trans (tail_drop 1 _))⟩
    · split
      · exact .inr rfl
      · exact .inl ⟨_, _, rfl, tail_dropWhile _ _⟩
  have hport : ∀ e s, (∃ x r, parsePort e s = .ok (x, r) ∧ Tail r s) ∨ parsePort e s = .error .err := by
    intro e s
    unfold parsePort
    split
    · split
      · exact .inr rfl
      · rename_i p r hp
        split
        · exact .inr rfl
        · exact .inl ⟨_, _, rfl, (portLoop_tail _ _ _ _ hp).trans (tail_drop 1 _)⟩
    · exact .inl ⟨_, _, rfl, tail_self _⟩
  have hend : ∀ s, (∃ r, hostEnd s = .ok r ∧ Tail r s) ∨ hostEnd s = .error .err := by
    intro s
    unfold hostEnd
    split
    · exact .inl ⟨_, rfl, tail_self _⟩
    split
    · exact .inl ⟨_, rfl, tail_drop 1 _⟩
    split
    · exact .inl ⟨_, rfl, tail_self _⟩
    · exact .inr rfl
  unfold parseHost
  rcases hname with ⟨x, r, h, t⟩ | h
  · rw [h]; simp only [Except.bind]
    rcases hport (e.set (str "host") x) r with ⟨y, r2, h2, t2⟩ | h2
    · rw [h2]; simp only []
      rcases hend r2 with ⟨r3, h3, t3⟩ | h3
      · rw [h3]; exact .inl ⟨_, _, rfl, t3.trans (t2.trans t)⟩
      · rw [h3]; exact .inr rfl
    · rw [h2]; exact .inr rfl
  · rw [h]; exact .inr rfl

theorem parseUser_tail (e : Ep) (s : Bytes) : (∃ x r, parseUser e s = .ok (x, r) ∧ Tail r s) ∨ parseUser e s = .error .err := by
  unfold parseUser
  simp only []
  have t := (tail_drop 1 _).trans (tail_from 64 s)
  split
  · exact .inl ⟨_, _, rfl, tail_self _⟩
  split
  · exact .inr rfl
  split
  · exact .inl ⟨_, _, rfl, t⟩
  · exact .inl ⟨_, _, rfl, t⟩

theorem parseProtocol_tail (e : Ep) (s : Bytes) : (∃ x r, parseProtocol e s = .ok (x, r) ∧ Tail r s) ∨ parseProtocol e s = .error .err := by
  unfold parseProtocol
  split
  · exact .inl ⟨_, _, rfl, tail_drop _ _⟩
  split
  · exact .inl ⟨_, _, rfl, tail_drop _ _⟩
  split
  · exact .inl ⟨_, _, rfl, tail_drop _ _⟩
  split
  · exact .inr rfl
  · exact .inl ⟨_, _, rfl, tail_self _⟩

theorem namesUri_tail {r s : Bytes} (ht : Tail r s) (h : NamesUri r) : NamesUri s := by
  obtain ⟨p, rfl⟩ := ht; exact namesUri_suffix p r h

theorem cut_namesUri (s : Bytes) (h : NamesUri (cut s)) : NamesUri s := by
  obtain ⟨a, n, b, h1, h2⟩ := h
  refine ⟨a, n, b ++ fromC 0 s, ?_, h2⟩
  have := before_from 0 s
  unfold cut at h1
  rw [h1] at this
  simpa using this.symm

/-- Any text: reading it as an address (unless it is empty), or as the target of a request, is an answer or an error, unless an
argument of it is named `uri`. -/
theorem C84_safe (e : Ep) (s : Bytes) :
    (uriParse e s = .error .ub → s = [] ∨ NamesUri s) ∧ (uriParseEndpoint e s = .error .ub → NamesUri s) := by
  constructor
  · intro h
    unfold uriParse at h
    split at h
    · left; assumption
    right
    refine cut_namesUri s ?_
    rcases parseProtocol_tail (e.set (str "uri") s) (cut s) with ⟨x, r, hp, t⟩ | hp
    · rw [hp] at h; simp only [Except.bind] at h
      rcases parseUser_tail x r with ⟨x2, r2, hp2, t2⟩ | hp2
      · rw [hp2] at h; simp only [] at h
        have h3 : (∃ x3 r3, (if x2.proto ≠ 2 then parseHost x2 r2 else Except.ok (x2, r2)) = Except.ok (x3, r3) ∧ Tail r3 r2)
            ∨ (if x2.proto ≠ 2 then parseHost x2 r2 else Except.ok (x2, r2)) = Except.error .err := by
          split
          · exact parseHost_tail x2 r2
          · exact .inl ⟨_, _, rfl, tail_self _⟩
        rcases h3 with ⟨x3, r3, hp3, t3⟩ | hp3
        · rw [hp3] at h; simp only [] at h
          rcases parsePath_tail x3 r3 with ⟨x4, r4, hp4, t4⟩ | hp4
          · rw [hp4] at h; simp only [] at h
            exact namesUri_tail (t4.trans (t3.trans (t2.trans t))) (parseArgs_ub _ _ h)
          · rw [hp4] at h; cases h
        · rw [hp3] at h; cases h
      · rw [hp2] at h; cases h
    · rw [hp] at h; cases h
  · intro h
    unfold uriParseEndpoint at h
    simp only [] at h
    split at h
    · rcases parsePath_tail (e.set (str "uri") s) ((cut s).drop 7) with ⟨x4, r4, hp4, t4⟩ | hp4
      · rw [hp4] at h; simp only [Except.bind] at h
        exact cut_namesUri s (namesUri_tail (t4.trans (tail_drop 7 _)) (parseArgs_ub _ _ h))
      · rw [hp4] at h; cases h
    repeat' split at h
    all_goals cases h

/-! ## what does not hold -/

/-- Any client can make the server read memory that was freed: the argument `uri` replaces the text that is being read.  The same
happens in a connection string. -/
theorem C84_uri_argument_false (e : Ep) :
    uriParseEndpoint e (str "/v1/db/main?uri=x") = .error .ub ∧ uriParse e (str "http://h/?uri=x") = .error .ub
    ∧ uriParse e [] = .error .ub := by
  refine ⟨rfl, rfl, rfl⟩

/-- A secret is written as the name of the user: the address of a connection with a secret is read back with another secret. -/
theorem C84_secret_false : ∃ e e' : Ep, e.proto = 0 ∧ e.s (str "host") = str "h" ∧ e.s (str "user") = str "joe" ∧ e.s (str "secret") = str "pw"
    ∧ uriParse {} (uriExport e) = .ok e' ∧ e'.s (str "secret") = str "joe" := by
  let e : Ep := { proto := 0, port := 7, s := fun k => if k = str "host" then str "h" else if k = str "user" then str "joe"
    else if k = str "secret" then str "pw" else [] }
  have ht : uriExport e = str "http://joe:joe@h:7/" := by
    have e7 : Json.Text.intText (asInt 7) = [55] := by simp [asInt, Json.Text.intText, Json.Text.decDigits]
    have : uriExport e = str "http://" ++ str "joe:joe@" ++ (str "h:" ++ Json.Text.intText (asInt 7) ++ [47]) ++ [] ++ [] := by rfl
    rw [this, e7]; decide
  exact ⟨e, (((({ proto := 0, port := 7 } : Ep).set (str "uri") (str "http://joe:joe@h:7/")).set (str "user") (str "joe")).set (str "secret")
    (str "joe")).set (str "host") (str "h"), by decide, by decide, by decide, by decide, by rw [ht]; rfl, by decide⟩

/-- The address of a connection to an IPv6 address is written without brackets and cannot be read. -/
theorem C84_ipv6_false : ∃ (e : Ep) (x : Ep), uriParse {} (str "http://[::1]:80/") = .ok x ∧ e.s = x.s ∧ e.proto = 0 ∧ e.port = 7
    ∧ uriParse {} (uriExport e) = .error .err := by
  let x : Ep := (({ proto := 0, port := 80 } : Ep).set (str "uri") (str "http://[::1]:80/")).set (str "host") (str "::1")
  have ht : uriExport { x with port := 7 } = str "http://::1:7/" := by
    have e7 : Json.Text.intText (asInt 7) = [55] := by simp [asInt, Json.Text.intText, Json.Text.decDigits]
    have : uriExport { x with port := 7 } = str "http://" ++ [] ++ (str "::1:" ++ Json.Text.intText (asInt 7) ++ [47]) ++ [] ++ [] := by rfl
    rw [this, e7]; decide
  exact ⟨{ x with port := 7 }, x, by rfl, rfl, rfl, rfl, by rw [ht]; rfl⟩

/-- The client writes its arguments without percent-encoding: what follows an `&` in a value is read as another option. -/
theorem C84_encoding_false (e : Ep) : ∃ e', uriParseEndpoint e (target { db := str "main", columns := str "a&user=root" }) = .ok e'
    ∧ e'.s (str "columns") = str "a" ∧ e'.s (str "user") = str "root" := by
  have ht : target { db := str "main", columns := str "a&user=root" } = str "/v1/db/main?columns=a&user=root" := by decide
  rw [ht]
  exact ⟨(((e.set (str "uri") (str "/v1/db/main?columns=a&user=root")).set (str "db") (str "main")).set (str "columns") (str "a")).set
    (str "user") (str "root"), rfl, rfl, rfl⟩

/-- An `@` in an argument is taken for the end of a user: without a user such an address is misread. -/
theorem C84_at_false : ∃ e', uriParse {} (str "http://h/db?format=a@b") = .ok e' ∧ e'.s (str "user") = str "h/db?format=a" ∧ e'.s (str "host") = str "b" :=
  ⟨((({ proto := 0 } : Ep).set (str "uri") (str "http://h/db?format=a@b")).set (str "user") (str "h/db?format=a")).set (str "host") (str "b"),
    rfl, by decide, by decide⟩

/-- A request for a service with an argument, as the client writes it, is refused. -/
theorem C84_service_false (e : Ep) : uriParseEndpoint e (target { service := str "backup", format := str "json" }) = .error .err
    ∧ (∃ e', uriParseEndpoint e (target { service := str "backup" }) = .ok e' ∧ e'.s (str "service") = str "backup") := by
  have h1 : target { service := str "backup", format := str "json" } = str "/v1/backup?format=json" := by decide
  have h2 : target { service := str "backup" } = str "/v1/backup" := by decide
  rw [h1, h2]
  exact ⟨rfl, _, rfl, by simp only [Ep.set, if_true]⟩

end Verif.Net.Uri
