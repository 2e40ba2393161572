import Verif.Net.AuthProofs
set_option linter.unusedSimpArgs false
set_option linter.unusedVariables false
namespace Verif.Net.Auth
open Verif Verif.Json Verif.Net.Table Verif.Index.Hash

theorem decLoop_len (A : Codec.Alphabet) : ∀ (s : Bytes) (order : Nat) (out : Bytes) (cur : Nat) (r : Bytes),
    Codec.decLoop A order out cur s = .ok r → r.length ≤ out.length + s.length
  | [], order, out, cur, r, h => by simp only [Codec.decLoop] at h; cases h; simp
  | c :: t, order, out, cur, r, h => by
    simp only [Codec.decLoop] at h
    split at h
    · cases h; simp
    · split at h
      · cases h
      · split at h
        · cases h
        · split at h <;>
          · have := decLoop_len A t _ _ _ _ h
            simp at this ⊢; omega

theorem decode_len {A : Codec.Alphabet} {s r : Bytes} (h : Codec.decode A s = .ok r) : r.length ≤ s.length := by
  simpa using decLoop_len A s _ _ _ _ h

/-- a JSON text, read twice: by the parser of the server and by the specification -/
theorem parse_cases (L : Text.Libc) (hL : Text.LibcOk L) (text : Bytes) (hb : text.length < 2 ^ 31) :
    (∃ e, Text.parse L text = .error e ∧ jsonOf L text = none) ∨
    ∃ rest doc v, Text.parse L text = .ok (rest, doc) ∧ Json.decode doc = .ok (v, []) ∧ jsonOf L text = some v := by
  cases hp : Text.parse L text with
  | error e => exact .inl ⟨e, rfl, by simp [jsonOf, hp]⟩
  | ok p =>
    obtain ⟨rest, doc⟩ := p
    obtain ⟨v, hd⟩ := Text.parse_doc L hL text rest doc hb hp
    have := hd.decodes []
    rw [List.append_nil] at this
    exact .inr ⟨rest, doc, v, rfl, this, by simp [jsonOf, hp, this]⟩

theorem claim_str {fs : List (Bytes × J)} {k : Bytes} {g : Got} (h : ClaimOf fs k .str g) : ∃ s, g = .str s ∧ StrClaim fs k s := by
  cases g with
  | str s => exact ⟨s, rfl, h⟩
  | int i => exact h.elim

theorem claim_int {fs : List (Bytes × J)} {k : Bytes} {g : Got} (h : ClaimOf fs k .int g) : ∃ s, g = .int s ∧ IntClaim fs k s := by
  cases g with
  | str s => exact h.elim
  | int i => exact ⟨i, rfl, h⟩

theorem decodeJ_obj {keys : List (Bytes × Want)} {v : J} {got : List (Bytes × Got)} (h : decodeJ keys v = some got) : ∃ fs, v = .obj fs := by
  cases v <;> simp [decodeJ] at h
  exact ⟨_, rfl⟩

def headKeys : List (Bytes × Want) := [(str "alg", .str), (str "typ", .str)]
def payKeys : List (Bytes × Want) := [(str "sub", .str), (str "iat", .int), (str "exp", .int)]

theorem keys_find (keys : List (Bytes × Want)) : ∀ k w, wants keys k = some w → w ∈ keys ∧ w.1 = k := by
  intro k w h
  unfold wants at h
  exact ⟨List.mem_of_find?_eq_some h, by simpa using List.find?_some h⟩

theorem headKeys_ok : ∀ k ∈ headKeys, wants headKeys k.1 = some k := by decide
theorem payKeys_ok : ∀ k ∈ payKeys, wants payKeys k.1 = some k := by decide

theorem checkHeader_iff (L : Text.Libc) (hL : Text.LibcOk L) (text : Bytes) (hb : text.length < 2 ^ 31) :
    checkHeader L text = .ok () ↔ ∃ fs alg typ, jsonOf L text = some (.obj fs) ∧
      StrClaim fs (str "alg") alg ∧ StrClaim fs (str "typ") typ ∧ alg.map lowerC = str "hs256" ∧ typ.map lowerC = str "jwt" := by
  unfold checkHeader
  have e1 : (str "HS256").map lowerC = str "hs256" := by decide
  have e2 : (str "JWT").map lowerC = str "jwt" := by decide
  rcases parse_cases L hL text hb with ⟨e, h1, h2⟩ | ⟨rest, doc, v, h1, h2, h3⟩
  · rw [h1, h2]
    simp [Except.bind]
  · rw [h1, h3]
    simp only [Except.bind]
    rw [show [(str "alg", Want.str), (str "typ", Want.str)] = headKeys from rfl, decodeObj_eq headKeys h2]
    constructor
    · intro h
      cases hd : decodeJ headKeys v with
      | none => rw [hd] at h; cases h
      | some got =>
        rw [hd] at h
        simp only [Option.elim] at h
        obtain ⟨fs, rfl⟩ := decodeJ_obj hd
        have hk := decodeJ_iff headKeys headKeys_ok fs got hd
        obtain ⟨g1, f1, c1⟩ := hk (str "alg", .str) (by decide)
        obtain ⟨g2, f2, c2⟩ := hk (str "typ", .str) (by decide)
        obtain ⟨alg, rfl, c1⟩ := claim_str c1
        obtain ⟨typ, rfl, c2⟩ := claim_str c2
        have a1 : strOf got (str "alg") = alg := by simp only at f1; simp only [strOf, f1]
        have a2 : strOf got (str "typ") = typ := by simp only at f2; simp only [strOf, f2]
        rw [a1, a2] at h
        by_cases i1 : isCase alg (str "HS256") = false
        · simp only [i1, if_true] at h; cases h
        · by_cases i2 : isCase typ (str "JWT") = false
          · simp only [i1, i2, if_true, if_false] at h; cases h
          · simp [isCase, e1] at i1
            simp [isCase, e2] at i2
            exact ⟨fs, alg, typ, rfl, c1, c2, i1, i2⟩
    · rintro ⟨fs, alg, typ, hv, c1, c2, i1, i2⟩
      cases hv
      obtain ⟨got, hg⟩ := decodeJ_complete headKeys (keys_find _) headKeys_ok fs (by
        intro k hk
        simp only [headKeys, List.mem_cons, List.not_mem_nil, or_false] at hk
        rcases hk with rfl | rfl
        · exact ⟨.str alg, c1⟩
        · exact ⟨.str typ, c2⟩)
      rw [hg]
      simp only [Option.elim]
      have hk := decodeJ_iff headKeys headKeys_ok fs got hg
      obtain ⟨g1, f1, d1⟩ := hk (str "alg", .str) (by decide)
      obtain ⟨g2, f2, d2⟩ := hk (str "typ", .str) (by decide)
      cases claim_unique d1 (show ClaimOf fs (str "alg") .str (.str alg) from c1)
      cases claim_unique d2 (show ClaimOf fs (str "typ") .str (.str typ) from c2)
      have a1 : strOf got (str "alg") = alg := by simp only at f1; simp only [strOf, f1]
      have a2 : strOf got (str "typ") = typ := by simp only at f2; simp only [strOf, f2]
      have b1 : isCase alg (str "HS256") = true := by simp [isCase, e1, i1]
      have b2 : isCase typ (str "JWT") = true := by simp [isCase, e2, i2]
      rw [a1, a2, b1, b2]
      rfl

theorem decodeHeader_iff (L : Text.Libc) (hL : Text.LibcOk L) (h : Bytes) (hb : h.length < 2 ^ 31) :
    decodeHeader L h = .ok () ↔ HeaderOk L h := by
  unfold decodeHeader HeaderOk
  cases hd : Codec.decode Codec.url h with
  | error e => simp [Except.bind]
  | ok text =>
    have hl := decode_len hd
    simp only [Except.bind]
    rw [checkHeader_iff L hL text (by omega)]
    constructor
    · rintro ⟨fs, alg, typ, h⟩; exact ⟨text, fs, alg, typ, rfl, h⟩
    · rintro ⟨text', fs, alg, typ, he, h⟩; cases he; exact ⟨fs, alg, typ, h⟩

theorem decodePayload_iff (L : Text.Libc) (hL : Text.LibcOk L) (p : Bytes) (hb : p.length < 2 ^ 31) (c : Claims) :
    decodePayload L p = .ok c ↔ PayloadIs L p c.sub c.iat c.exp := by
  unfold decodePayload PayloadIs
  cases hd : Codec.decode Codec.url p with
  | error e => simp [Except.bind]
  | ok text =>
    have hl := decode_len hd
    simp only [Except.bind]
    rcases parse_cases L hL text (by omega) with ⟨e, h1, h2⟩ | ⟨rest, doc, v, h1, h2, h3⟩
    · rw [h1]
      constructor
      · intro h; cases h
      · rintro ⟨t, fs, ht, hj, _⟩; cases ht; rw [h2] at hj; cases hj
    · rw [h1]
      simp only
      rw [show [(str "sub", Want.str), (str "iat", Want.int), (str "exp", Want.int)] = payKeys from rfl, decodeObj_eq payKeys h2]
      have look : ∀ fs got, decodeJ payKeys (.obj fs) = some got →
          ∃ s i e, strOf got (str "sub") = s ∧ intOf got (str "iat") = i ∧ intOf got (str "exp") = e ∧
            StrClaim fs (str "sub") s ∧ IntClaim fs (str "iat") i ∧ IntClaim fs (str "exp") e := by
        intro fs got hg
        have hk := decodeJ_iff payKeys payKeys_ok fs got hg
        obtain ⟨g1, f1, d1⟩ := hk (str "sub", .str) (by decide)
        obtain ⟨g2, f2, d2⟩ := hk (str "iat", .int) (by decide)
        obtain ⟨g3, f3, d3⟩ := hk (str "exp", .int) (by decide)
        obtain ⟨s, rfl, c1⟩ := claim_str d1
        obtain ⟨i, rfl, c2⟩ := claim_int d2
        obtain ⟨e, rfl, c3⟩ := claim_int d3
        refine ⟨s, i, e, ?_, ?_, ?_, c1, c2, c3⟩
        · simp only at f1; simp only [strOf, f1]
        · simp only at f2; simp only [intOf, f2]
        · simp only at f3; simp only [intOf, f3]
      constructor
      · intro h
        cases hg : decodeJ payKeys v with
        | none => rw [hg] at h; cases h
        | some got =>
          rw [hg] at h
          simp only [Option.elim] at h
          obtain ⟨fs, rfl⟩ := decodeJ_obj hg
          obtain ⟨s, i, e, a1, a2, a3, c1, c2, c3⟩ := look fs got hg
          rw [a1, a2, a3] at h
          cases h
          exact ⟨text, fs, rfl, h3, c1, c2, c3⟩
      · rintro ⟨t, fs, ht, hj, c1, c2, c3⟩
        cases ht
        rw [h3] at hj
        cases hj
        obtain ⟨got, hg⟩ := decodeJ_complete payKeys (keys_find _) payKeys_ok fs (by
          intro k hk
          simp only [payKeys, List.mem_cons, List.not_mem_nil, or_false] at hk
          rcases hk with rfl | rfl | rfl
          · exact ⟨.str c.sub, c1⟩
          · exact ⟨.int c.iat, c2⟩
          · exact ⟨.int c.exp, c3⟩)
        obtain ⟨s, i, e, a1, a2, a3, d1, d2, d3⟩ := look fs got hg
        rw [hg]
        simp only [Option.elim]
        rw [a1, a2, a3]
        cases claim_unique (show ClaimOf fs (str "sub") .str (.str s) from d1) (show ClaimOf fs (str "sub") .str (.str c.sub) from c1)
        cases claim_unique (show ClaimOf fs (str "iat") .int (.int i) from d2) (show ClaimOf fs (str "iat") .int (.int c.iat) from c2)
        cases claim_unique (show ClaimOf fs (str "exp") .int (.int e) from d3) (show ClaimOf fs (str "exp") .int (.int c.exp) from c3)
        rfl

theorem validate_iff (hmac : Bytes → Bytes → Bytes) (hm : ∀ s t, (hmac s t).length = 32) (p : Parts) (secret : Bytes) :
    validate hmac p secret = .ok () ↔ Codec.decode Codec.url p.digest = .ok (hmac secret p.origin) := by
  unfold validate
  cases hd : Codec.decode Codec.url p.digest with
  | error e => simp [Except.bind]
  | ok mac =>
    simp only [Except.bind]
    by_cases h1 : mac = hmac secret p.origin
    · simp [h1, hm]
    · by_cases h2 : mac.length = 32
      · simp [h1, h2]
      · simp [h1, h2]

theorem unit_ok {x : Res Unit} {a : Unit} (h : x = .ok a) : x = .ok () := h

theorem check_iff (hmac : Bytes → Bytes → Bytes) (hm : ∀ s t, (hmac s t).length = 32) (L : Text.Libc) (hL : Text.LibcOk L)
    (users : List User) (now : Int) (token : Bytes) (hb : token.length < 2 ^ 31) (q : Parts) (hq : jwtDecode token = .ok q)
    (u : User) (exp : Int) : check hmac L users now q = .ok (u, exp) ↔ Valid hmac L users now token u exp := by
  obtain ⟨t1, t2, t3, t4, t5, t6, t7⟩ := (jwtDecode_iff token q).1 hq
  have hlen : q.header.length < 2 ^ 31 ∧ q.payload.length < 2 ^ 31 := by
    rw [t1] at hb; simp at hb; omega
  constructor
  · intro h
    unfold check at h
    cases hh : decodeHeader L q.header with
    | error e => rw [hh] at h; cases h
    | ok a =>
      rw [hh] at h
      simp only [Except.bind] at h
      have hh := (decodeHeader_iff L hL _ hlen.1).1 hh
      cases hp : decodePayload L q.payload with
      | error e => rw [hp] at h; cases h
      | ok c =>
        rw [hp] at h
        simp only at h
        have hp := (decodePayload_iff L hL _ hlen.2 c).1 hp
        by_cases h1 : c.iat = 0 ∨ c.exp = 0 ∨ c.iat > c.exp
        · rw [if_pos h1] at h; cases h
        · rw [if_neg h1] at h
          by_cases h2 : now ≥ c.exp
          · rw [if_pos h2] at h; cases h
          · rw [if_neg h2] at h
            cases hu : findUser users c.sub with
            | none => rw [hu] at h; cases h
            | some w =>
              rw [hu] at h
              simp only at h
              cases hv : validate hmac q w.secret with
              | error e => rw [hv] at h; cases h
              | ok b =>
                rw [hv] at h
                simp only at h
                cases h
                have hv := (validate_iff hmac hm _ _).1 hv
                have hn : u.name = c.sub := by simpa using List.find?_some hu
                refine ⟨q.header, q.payload, q.digest, c.iat, t1, t2, t3, t4, t5, t6, hh, ?_, by omega, by omega, by omega, by omega, ?_, ?_⟩
                · rw [hn]; exact hp
                · rw [hn]; exact hu
                · rw [← t7]; exact hv
  · rintro ⟨h, p, digest, iat, e1, e2, e3, e4, e5, e6, hh, hp, g1, g2, g3, g4, hu, hv⟩
    have hq' := (jwtDecode_iff token ⟨h, p, digest, h ++ [46] ++ p⟩).2 ⟨e1, e2, e3, e4, e5, e6, rfl⟩
    rw [hq] at hq'
    cases hq'
    unfold check
    rw [(decodeHeader_iff L hL _ hlen.1).2 hh]
    simp only [Except.bind]
    rw [(decodePayload_iff L hL _ hlen.2 ⟨u.name, iat, exp⟩).2 hp]
    simp only
    rw [if_neg (by omega), if_neg (by omega)]
    have hu : findUser users u.name = some u := hu
    rw [hu]
    simp only
    rw [(validate_iff hmac hm _ _).2 hv]

/-- two users or two times of the same token: there is only one -/
theorem valid_unique {hmac : Bytes → Bytes → Bytes} (hm : ∀ s t, (hmac s t).length = 32) {L : Text.Libc} (hL : Text.LibcOk L)
    {users : List User} {now : Int} {token : Bytes} (hb : token.length < 2 ^ 31) {u u' : User} {e e' : Int}
    (h : Valid hmac L users now token u e) (h' : Valid hmac L users now token u' e') : u = u' ∧ e = e' := by
  have hq : ∃ q, jwtDecode token = .ok q := by
    obtain ⟨h, p, digest, iat, e1, e2, e3, e4, e5, e6, _⟩ := h
    exact ⟨_, (jwtDecode_iff token ⟨h, p, digest, h ++ [46] ++ p⟩).2 ⟨e1, e2, e3, e4, e5, e6, rfl⟩⟩
  obtain ⟨q, hq⟩ := hq
  have a := (check_iff hmac hm L hL users now token hb q hq u e).2 h
  have b := (check_iff hmac hm L hL users now token hb q hq u' e').2 h'
  rw [a] at b
  cases b
  exact ⟨rfl, rfl⟩

theorem hasDigest_iff (token digest : Bytes) : HasDigest token digest ↔ ∃ q, jwtDecode token = .ok q ∧ q.digest = digest := by
  constructor
  · rintro ⟨h, p, e1, e2, e3, e4, e5, e6⟩
    exact ⟨⟨h, p, digest, h ++ [46] ++ p⟩, (jwtDecode_iff _ _).2 ⟨e1, e2, e3, e4, e5, e6, rfl⟩, rfl⟩
  · rintro ⟨q, hq, rfl⟩
    obtain ⟨e1, e2, e3, e4, e5, e6, _⟩ := (jwtDecode_iff _ _).1 hq
    exact ⟨q.header, q.payload, e1, e2, e3, e4, e5, e6⟩

/-! ## users -/

theorem findUser_append (l m : List User) (n : Bytes) : findUser (l ++ m) n = (findUser l n).or (findUser m n) := by
  simp [findUser, List.find?_append]

theorem findUser_kept (self with_ : List User) (n : Bytes) :
    findUser (self.filterMap fun u => (findUser with_ u.name).map fun w => (⟨u.name, w.secret⟩ : User)) n = none ∨
    findUser (self.filterMap fun u => (findUser with_ u.name).map fun w => (⟨u.name, w.secret⟩ : User)) n = findUser with_ n := by
  induction self with
  | nil => left; rfl
  | cons u t ih =>
    rw [List.filterMap_cons]
    cases hu : findUser with_ u.name with
    | none => simpa [hu] using ih
    | some w =>
      have hn : w.name = u.name := by simpa using List.find?_some hu
      simp only [Option.map_some]
      by_cases he : u.name = n
      · right
        simp only [findUser, List.find?_cons, he, decide_true]
        have : findUser with_ n = some w := by rw [← he]; exact hu
        simp only [findUser] at this
        rw [this]
        simp only [Option.some.injEq]
        cases w; simp only at hn; subst hn; simp [he]
      · simpa [findUser, List.find?_cons, he] using ih

theorem fold_find (n : Bytes) : ∀ (rest l : List User), findUser (rest.foldl (fun l w => if (findUser l w.name).isNone then l ++ [w] else l) l) n =
    (findUser l n).or (findUser rest n)
  | [], l => by simp [findUser]
  | w :: rest, l => by
    rw [List.foldl_cons, fold_find n rest]
    by_cases hw : (findUser l w.name).isNone
    · rw [if_pos hw, findUser_append, Option.or_assoc]
      congr 1
      simp only [findUser, List.find?_cons, List.find?_nil]
      by_cases he : w.name = n <;> simp [he]
    · rw [if_neg hw]
      by_cases he : w.name = n
      · subst he
        cases hf : findUser l w.name with
        | none => rw [hf] at hw; simp at hw
        | some x => simp
      · have : findUser (w :: rest) n = findUser rest n := by simp [findUser, List.find?_cons, he]
        rw [this]

/-- after user_cache_sync the users are those that were sent -/
theorem findUser_sync (self with_ : List User) (n : Bytes) : findUser (userSync self with_) n = findUser with_ n := by
  unfold userSync
  simp only
  rw [fold_find]
  rcases findUser_kept self with_ n with h | h
  · rw [h]; simp
  · rw [h]; cases findUser with_ n <;> rfl

/-! ## histories -/

theorem recent_app : ∀ (ops : List Op) (l : List (Int × Bytes)) (o : Op), recent l (ops ++ [o]) =
    match o with
    | .login now token => recent l ops ++ [(now, token)]
    | .sync _ => []
  | [], l, o => by cases o <;> rfl
  | .login now token :: t, l, o => by simp only [List.cons_append, recent]; exact recent_app t _ o
  | .sync us :: t, l, o => by simp only [List.cons_append, recent]; exact recent_app t _ o

theorem current_app : ∀ (ops : List Op) (us : List User) (o : Op), current us (ops ++ [o]) =
    match o with
    | .login _ _ => current us ops
    | .sync us => us
  | [], us, o => by cases o <;> rfl
  | .login now token :: t, us, o => by simp only [List.cons_append, current]; exact current_app t _ o
  | .sync us' :: t, us, o => by simp only [List.cons_append, current]; exact current_app t _ o

theorem after_app (hmac : Bytes → Bytes → Bytes) (L : Text.Libc) : ∀ (ops : List Op) (a : Auth) (o : Op), after hmac L a (ops ++ [o]) =
    match o with
    | .login now token => (authRun hmac L now (after hmac L a ops) token).2
    | .sync us => authSync (after hmac L a ops) us
  | [], a, o => by cases o <;> rfl
  | .login now token :: t, a, o => by simp only [List.cons_append, after]; exact after_app hmac L t _ o
  | .sync us :: t, a, o => by simp only [List.cons_append, after]; exact after_app hmac L t _ o

/-- what holds of a frontend: its cache is a table whose entries come from valid logins since the last sync -/
structure Inv (hmac : Bytes → Bytes → Bytes) (L : Text.Libc) (a : Auth) (cur : List User) (rec : List (Int × Bytes)) : Prop where
  ok : Ok (prepare a.cache)
  users : ∀ n, findUser a.users n = findUser cur n
  rows : ∀ x ∈ rowsOf (prepare a.cache).slots, ∃ t ∈ rec, HasDigest t.2 x.2.digest ∧ Valid hmac L cur t.1 t.2 x.2.user x.2.expire

theorem valid_users {hmac : Bytes → Bytes → Bytes} {L : Text.Libc} {us us' : List User} (h : ∀ n, findUser us n = findUser us' n)
    {now : Int} {token : Bytes} {u : User} {e : Int} (hv : Valid hmac L us now token u e) : Valid hmac L us' now token u e := by
  obtain ⟨h1, p, digest, iat, e1, e2, e3, e4, e5, e6, hh, hp, g1, g2, g3, g4, hu, hv⟩ := hv
  refine ⟨h1, p, digest, iat, e1, e2, e3, e4, e5, e6, hh, hp, g1, g2, g3, g4, ?_, hv⟩
  exact (h u.name).symm.trans hu

theorem cacheFind_any {t : Ht Entry} (h : Ok t) (digest : Bytes) :
    cacheFind t digest = some none ∨
    ∃ p e, cacheFind t digest = some (some (p, e)) ∧ t.slots.getD p .empty = .row (Row.murmur digest 0, e) ∧ e.digest = digest := by
  rcases get_any h (Row.murmur digest 0) (fun e => decide (e.digest = digest)) with h1 | ⟨p, e, h1, h2, h3⟩
  · exact .inl h1
  · exact .inr ⟨p, e, h1, h2, by simpa using h3⟩

theorem mem_rows {t : Ht Entry} {p : Nat} {x : Nat × Entry} (h : t.slots.getD p .empty = .row x) : x ∈ rowsOf t.slots :=
  mem_rowsOf.2 ⟨p, getD_lt h, h⟩

/-- one request in a state with the invariant -/
theorem login_step {hmac : Bytes → Bytes → Bytes} (hm : ∀ s t, (hmac s t).length = 32) {L : Text.Libc} (hL : Text.LibcOk L)
    {a : Auth} {cur : List User} {rec : List (Int × Bytes)} (hi : Inv hmac L a cur rec) (now : Int) (token : Bytes) (hb : token.length < 2 ^ 31) :
    Inv hmac L (authRun hmac L now a token).2 cur (rec ++ [(now, token)]) := by
  have keep : Inv hmac L { a with cache := some (prepare a.cache) } cur (rec ++ [(now, token)]) := by
    refine ⟨hi.ok, hi.users, ?_⟩
    intro x hx
    obtain ⟨t, ht, h⟩ := hi.rows x hx
    exact ⟨t, by simp [ht], h⟩
  unfold authRun
  simp only
  cases hq : jwtDecode token with
  | error e => exact keep
  | ok q =>
    simp only
    rcases cacheFind_any hi.ok q.digest with h1 | ⟨p, e, h1, h2, h3⟩
    · rw [h1]
      simp only
      cases hc : check hmac L a.users now q with
      | error e => exact keep
      | ok r =>
        obtain ⟨u, exp⟩ := r
        simp only
        obtain ⟨t', ha, hok, hrows⟩ := add_ok hi.ok (Row.murmur q.digest 0, (⟨q.digest, u, exp⟩ : Entry))
        have : cacheAdd (prepare a.cache) ⟨q.digest, u, exp⟩ = some t' := ha
        rw [this]
        refine ⟨hok, hi.users, ?_⟩
        intro x hx
        rcases hrows x hx with rfl | hx
        · refine ⟨(now, token), by simp, (hasDigest_iff _ _).2 ⟨q, hq, rfl⟩, ?_⟩
          exact valid_users hi.users ((check_iff hmac hm L hL a.users now token hb q hq u exp).1 hc)
        · obtain ⟨t, ht, h⟩ := hi.rows x hx
          exact ⟨t, by simp [ht], h⟩
    · rw [h1]
      simp only
      by_cases he : now < e.expire
      · rw [if_pos he]; exact keep
      · rw [if_neg he]
        obtain ⟨d1, d2⟩ := delete_ok hi.ok h2
        refine ⟨d1, hi.users, ?_⟩
        intro x hx
        obtain ⟨t, ht, h⟩ := hi.rows x (d2 x hx)
        exact ⟨t, by simp [ht], h⟩

theorem start_ok : Ok (Store.create 256 : Ht Entry) := (create_has 256 (by decide)).ok

theorem inv_after {hmac : Bytes → Bytes → Bytes} (hm : ∀ s t, (hmac s t).length = 32) {L : Text.Libc} (hL : Text.LibcOk L) :
    ∀ (ops : List Op), (∀ now token, Op.login now token ∈ ops → token.length < 2 ^ 31) →
      ∀ (a : Auth) (cur : List User) (rec : List (Int × Bytes)), Inv hmac L a cur rec →
        Inv hmac L (after hmac L a ops) (current cur ops) (recent rec ops)
  | [], _, a, cur, rec, hi => hi
  | .login now token :: t, hs, a, cur, rec, hi => by
    simp only [after, current, recent]
    exact inv_after hm hL t (fun n k hk => hs n k (by simp [hk])) _ _ _ (login_step hm hL hi now token (hs now token (by simp)))
  | .sync us :: t, hs, a, cur, rec, hi => by
    simp only [after, current, recent]
    refine inv_after hm hL t (fun n k hk => hs n k (by simp [hk])) _ _ _ ⟨start_ok, findUser_sync a.users us, ?_⟩
    intro x hx
    have : rowsOf (prepare (authSync a us).cache).slots = [] := create_rows 256
    rw [this] at hx
    cases hx

theorem inv_start (hmac : Bytes → Bytes → Bytes) (L : Text.Libc) : Inv hmac L start [] [] where
  ok := start_ok
  users := fun _ => rfl
  rows := by
    intro x hx
    have : rowsOf (prepare start.cache).slots = [] := create_rows 256
    rw [this] at hx; cases hx

end Verif.Net.Auth
