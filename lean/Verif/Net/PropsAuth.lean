import Verif.Net.AuthProofs2
import Verif.Json.PropsText
import Verif.Json.PropsParse
import Verif.Codec.Props
import Verif.Net.PropsHttp
/-!
# C83: who is let in

Every theorem is about any code function `hmac` whose result is 32 bytes, any C library that reads reals from where it is told
to, any history of a frontend (`after`) and any tokens below 2 GB.
-/
set_option linter.unusedSimpArgs false
set_option linter.unusedVariables false
namespace Verif.Net.Auth
open Verif Verif.Json Verif.Net.Table Verif.Index.Hash

/-- the tokens of a history are shorter than 2 GB -/
def Small (ops : List Op) : Prop := ∀ now token, Op.login now token ∈ ops → token.length < 2 ^ 31

theorem inv_of {hmac : Bytes → Bytes → Bytes} (hm : ∀ s t, (hmac s t).length = 32) {L : Text.Libc} (hL : Text.LibcOk L) (ops : List Op)
    (hs : Small ops) : Inv hmac L (after hmac L start ops) (current [] ops) (recent [] ops) :=
  inv_after hm hL ops hs start [] [] (inv_start hmac L)

theorem valid_earlier {hmac : Bytes → Bytes → Bytes} {L : Text.Libc} {us : List User} {now now' : Int} (hn : now' ≤ now) {token : Bytes} {u : User}
    {e : Int} (h : Valid hmac L us now token u e) : Valid hmac L us now' token u e := by
  obtain ⟨h1, p, digest, iat, e1, e2, e3, e4, e5, e6, hh, hp, g1, g2, g3, g4, hu, hv⟩ := h
  exact ⟨h1, p, digest, iat, e1, e2, e3, e4, e5, e6, hh, hp, g1, g2, g3, by omega, hu, hv⟩

/-- **C83**: whoever is let in as `u`, after any history, either shows a token of `u` that is valid now under the users that
were last sent, or a token with the digest text of one that was valid for `u` when it was shown, since the users were last
sent, and that has not expired. -/
theorem C83_sound (hmac : Bytes → Bytes → Bytes) (hm : ∀ s t, (hmac s t).length = 32) (L : Text.Libc) (hL : Text.LibcOk L)
    (ops : List Op) (hs : Small ops) (now : Int) (token : Bytes) (hb : token.length < 2 ^ 31) (u : User)
    (h : (authRun hmac L now (after hmac L start ops) token).1 = .ok u) :
    (∃ exp, Valid hmac L (current [] ops) now token u exp) ∨
    ∃ t exp digest, t ∈ recent [] ops ∧ HasDigest token digest ∧ HasDigest t.2 digest ∧
      Valid hmac L (current [] ops) t.1 t.2 u exp ∧ now < exp := by
  have hi := inv_of hm hL ops hs
  generalize after hmac L start ops = a at h hi
  unfold authRun at h
  simp only at h
  cases hq : jwtDecode token with
  | error e => rw [hq] at h; cases h
  | ok q =>
    rw [hq] at h
    simp only at h
    rcases cacheFind_any hi.ok q.digest with h1 | ⟨p, e, h1, h2, h3⟩
    · rw [h1] at h
      simp only at h
      cases hc : check hmac L a.users now q with
      | error e => rw [hc] at h; cases h
      | ok r =>
        obtain ⟨w, exp⟩ := r
        rw [hc] at h
        simp only at h
        left
        refine ⟨exp, valid_users hi.users ((check_iff hmac hm L hL a.users now token hb q hq u exp).1 ?_)⟩
        cases hadd : cacheAdd (prepare a.cache) ⟨q.digest, w, exp⟩ with
        | none => rw [hadd] at h; cases h
        | some t => rw [hadd] at h; cases h; exact hc
    · rw [h1] at h
      simp only at h
      by_cases he : now < e.expire
      · rw [if_pos he] at h
        cases h
        obtain ⟨t, ht, hd, hv⟩ := hi.rows _ (mem_rows h2)
        exact .inr ⟨t, e.expire, q.digest, ht, (hasDigest_iff _ _).2 ⟨q, hq, rfl⟩, by rw [← h3]; exact hd, hv, he⟩
      · rw [if_neg he] at h; cases h

/-- **C83**: a token whose digest text was not shown since the users were last sent is accepted exactly if it is valid. -/
theorem C83_new_token (hmac : Bytes → Bytes → Bytes) (hm : ∀ s t, (hmac s t).length = 32) (L : Text.Libc) (hL : Text.LibcOk L)
    (ops : List Op) (hs : Small ops) (now : Int) (token : Bytes) (hb : token.length < 2 ^ 31) (u : User)
    (hnew : ∀ digest, HasDigest token digest → ∀ t ∈ recent [] ops, ¬ HasDigest t.2 digest) :
    (authRun hmac L now (after hmac L start ops) token).1 = .ok u ↔ ∃ exp, Valid hmac L (current [] ops) now token u exp := by
  constructor
  · intro h
    rcases C83_sound hmac hm L hL ops hs now token hb u h with h | ⟨t, exp, digest, ht, h1, h2, _⟩
    · exact h
    · exact absurd h2 (hnew digest h1 t ht)
  · rintro ⟨exp, hv⟩
    have hi := inv_of hm hL ops hs
    generalize after hmac L start ops = a at hi
    have hv := valid_users (fun n => (hi.users n).symm) hv
    have hq : ∃ q, jwtDecode token = .ok q := by
      obtain ⟨h, p, digest, iat, e1, e2, e3, e4, e5, e6, _⟩ := hv
      exact ⟨_, (jwtDecode_iff token ⟨h, p, digest, h ++ [46] ++ p⟩).2 ⟨e1, e2, e3, e4, e5, e6, rfl⟩⟩
    obtain ⟨q, hq⟩ := hq
    have hc := (check_iff hmac hm L hL a.users now token hb q hq u exp).2 hv
    unfold authRun
    simp only [hq]
    rcases cacheFind_any hi.ok q.digest with h1 | ⟨p, e, h1, h2, h3⟩
    · obtain ⟨t', ha, _⟩ := add_ok hi.ok (Row.murmur q.digest 0, (⟨q.digest, u, exp⟩ : Entry))
      have : cacheAdd (prepare a.cache) ⟨q.digest, u, exp⟩ = some t' := ha
      simp only [h1, hc, this]
    · obtain ⟨t, ht, hd, _⟩ := hi.rows _ (mem_rows h2)
      simp only [h3] at hd
      exact absurd hd (hnew q.digest ((hasDigest_iff _ _).2 ⟨q, hq, rfl⟩) t ht)

/-- **C83**: right after the users were sent again, only tokens that are valid under the new users are accepted: a user that was
dropped, or whose secret was changed, is out, whatever was accepted before. -/
theorem C83_after_sync (hmac : Bytes → Bytes → Bytes) (hm : ∀ s t, (hmac s t).length = 32) (L : Text.Libc) (hL : Text.LibcOk L)
    (ops : List Op) (hs : Small ops) (users : List User) (now : Int) (token : Bytes) (hb : token.length < 2 ^ 31) (u : User) :
    (authRun hmac L now (after hmac L start (ops ++ [.sync users])) token).1 = .ok u ↔ ∃ exp, Valid hmac L users now token u exp := by
  have h := C83_new_token hmac hm L hL (ops ++ [.sync users]) (by
    intro n k hk; simp at hk; exact hs n k hk) now token hb u (by
    intro d _ t ht; rw [recent_app] at ht; cases ht)
  rw [current_app] at h
  exact h

/-- **C83**: a valid token is accepted, after any history in which its digest was only shown with this very token: not only the
first time. -/
theorem C83_accepted (hmac : Bytes → Bytes → Bytes) (hm : ∀ s t, (hmac s t).length = 32) (L : Text.Libc) (hL : Text.LibcOk L)
    (ops : List Op) (hs : Small ops) (now : Int) (token : Bytes) (hb : token.length < 2 ^ 31) (u : User) (exp : Int)
    (hv : Valid hmac L (current [] ops) now token u exp)
    (hsame : ∀ digest, HasDigest token digest → ∀ t ∈ recent [] ops, HasDigest t.2 digest → t.2 = token) :
    (authRun hmac L now (after hmac L start ops) token).1 = .ok u := by
  have hi := inv_of hm hL ops hs
  generalize after hmac L start ops = a at hi
  have hv' := valid_users (fun n => (hi.users n).symm) hv
  have hq : ∃ q, jwtDecode token = .ok q := by
    obtain ⟨h, p, digest, iat, e1, e2, e3, e4, e5, e6, _⟩ := hv
    exact ⟨_, (jwtDecode_iff token ⟨h, p, digest, h ++ [46] ++ p⟩).2 ⟨e1, e2, e3, e4, e5, e6, rfl⟩⟩
  obtain ⟨q, hq⟩ := hq
  have hc := (check_iff hmac hm L hL a.users now token hb q hq u exp).2 hv'
  unfold authRun
  simp only [hq]
  rcases cacheFind_any hi.ok q.digest with h1 | ⟨p, e, h1, h2, h3⟩
  · obtain ⟨t', ha, _⟩ := add_ok hi.ok (Row.murmur q.digest 0, (⟨q.digest, u, exp⟩ : Entry))
    have : cacheAdd (prepare a.cache) ⟨q.digest, u, exp⟩ = some t' := ha
    simp only [h1, hc, this]
  · obtain ⟨t, ht, hd, hve⟩ := hi.rows _ (mem_rows h2)
    simp only [h3] at hd hve
    have := hsame q.digest ((hasDigest_iff _ _).2 ⟨q, hq, rfl⟩) t ht hd
    rw [this] at hve
    have huniq := valid_unique hm hL hb (valid_earlier (Int.min_le_left now t.1) hv) (valid_earlier (Int.min_le_right now t.1) hve)
    have hnow : now < exp := by
      obtain ⟨_, _, _, _, _, _, _, _, _, _, _, _, _, _, _, g, _⟩ := hv; exact g
    rw [h1]
    simp only
    rw [if_pos (by rw [← huniq.2]; exact hnow)]
    exact congrArg Except.ok huniq.1.symm

/-- **C83**: what a frontend asks for.  Without an Authorization header the client is let in exactly if it is trusted; with
one, exactly if the token is accepted, trusted or not. -/
theorem C83_gate (hmac : Bytes → Bytes → Bytes) (L : Text.Libc) (now : Int) (a : Auth) (trusted : Bool) (headers : List (Bytes × Bytes)) :
    (refused hmac L now a trusted headers).1 = false ↔
      (httpFind headers (str "Authorization") = none ∧ trusted = true) ∨
      ∃ v u, httpFind headers (str "Authorization") = some v ∧ (authRun hmac L now a v).1 = .ok u := by
  unfold refused
  cases hf : httpFind headers (str "Authorization") with
  | none => cases trusted <;> simp
  | some v =>
    simp only
    cases hr : (authRun hmac L now a v).1 with
    | error e => simp [hr]
    | ok u => simp [hr]

/-! ## safety -/

theorem dec_ascii {s : Bytes} (h : ∀ c ∈ s, c < 128) : Codec.decode Codec.url s ≠ .error .ub := by
  have ht : ∀ c, c < 128 → Codec.url.dec[c]? ≠ none := by decide
  have : ∀ (s : Bytes), (∀ c ∈ s, c < 128) → ∀ order out cur, Codec.decLoop Codec.url order out cur s ≠ .error .ub := by
    intro s
    induction s with
    | nil => intro _ _ _ _; simp [Codec.decLoop]
    | cons c t ih =>
      intro h order out cur
      have ht := ht c (h c (by simp))
      have ih := ih (fun c hc => h c (by simp [hc]))
      simp only [Codec.decLoop]
      split
      · simp
      · split
        · rename_i hn; exact absurd hn ht
        · split
          · simp
          · split <;> exact ih _ _ _
  exact this s h 0 [] 0

theorem bind_ne_ub {α β : Type} {x : Res α} {f : α → Res β} (h1 : x ≠ .error .ub) (h2 : ∀ a, x = .ok a → f a ≠ .error .ub) :
    x.bind f ≠ .error .ub := by
  cases x with
  | error e => intro h; simp [Except.bind] at h; exact h1 (by rw [h])
  | ok a => exact h2 a rfl

theorem elim_ne_ub {β : Type} (x : Option β) : x.elim (Except.error Fail.err) Except.ok ≠ .error .ub := by
  cases x <;> simp

/-- **C83**: no token makes the server read or write where it must not, or loop, if its bytes are ASCII and its parts do not
decode to text with an escape that the JSON reader does not know. -/
theorem C83_safe (hmac : Bytes → Bytes → Bytes) (hm : ∀ s t, (hmac s t).length = 32) (L : Text.Libc) (hL : Text.LibcOk L)
    (ops : List Op) (hs : Small ops) (now : Int) (token : Bytes) (hb : token.length < 2 ^ 31) (hascii : ∀ c ∈ token, c < 128)
    (hesc : ∀ pre part post text, token = pre ++ part ++ post → Codec.decode Codec.url part = .ok text → Text.EscOk text) :
    (authRun hmac L now (after hmac L start ops) token).1 ≠ .error .ub := by
  have hi := inv_of hm hL ops hs
  generalize after hmac L start ops = a at hi
  unfold authRun
  simp only
  cases hq : jwtDecode token with
  | error e =>
    simp only
    have : jwtDecode token ≠ .error .ub := by
      unfold jwtDecode
      split
      · simp
      · split
        · simp
        · split
          · simp
          · split
            · simp
            · split
              · simp
              · split <;> simp
    rw [hq] at this
    intro h; cases h; exact this rfl
  | ok q =>
    obtain ⟨t1, t2, t3, t4, t5, t6, t7⟩ := (jwtDecode_iff token q).1 hq
    have hlen : q.header.length < 2 ^ 31 ∧ q.payload.length < 2 ^ 31 := by
      rw [t1] at hb; simp at hb; omega
    simp only
    rcases cacheFind_any hi.ok q.digest with h1 | ⟨p, e, h1, h2, h3⟩
    · rw [h1]
      simp only
      have hc : check hmac L a.users now q ≠ .error .ub := by
        have ah : ∀ c ∈ q.header, c < 128 := fun c hc => hascii c (by rw [t1]; simp [hc])
        have ap : ∀ c ∈ q.payload, c < 128 := fun c hc => hascii c (by rw [t1]; simp [hc])
        have ad : ∀ c ∈ q.digest, c < 128 := fun c hc => hascii c (by rw [t1]; simp [hc])
        unfold check
        refine bind_ne_ub ?_ ?_
        · unfold decodeHeader
          refine bind_ne_ub (dec_ascii ah) ?_
          intro text ht
          have hl := decode_len ht
          have he := hesc (str "Bearer ") q.header ([46] ++ q.payload ++ [46] ++ q.digest) text (by rw [t1]; simp) ht
          have hp := (Text.C39_any_text L hL text he).1
          unfold checkHeader
          refine bind_ne_ub hp ?_
          intro r hr
          rcases parse_cases L hL text (by omega) with ⟨e, g1, _⟩ | ⟨rest, doc, v, g1, g2, _⟩
          · rw [g1] at hr; cases hr
          · rw [g1] at hr
            cases hr
            rw [decodeObj_eq _ g2]
            refine bind_ne_ub (elim_ne_ub _) ?_
            intro got _
            split
            · simp
            · split <;> simp
        · intro _ _
          refine bind_ne_ub ?_ ?_
          · unfold decodePayload
            refine bind_ne_ub (dec_ascii ap) ?_
            intro text ht
            have hl := decode_len ht
            have he := hesc (str "Bearer " ++ q.header ++ [46]) q.payload ([46] ++ q.digest) text (by rw [t1]; simp) ht
            have hp := (Text.C39_any_text L hL text he).1
            refine bind_ne_ub hp ?_
            intro r hr
            rcases parse_cases L hL text (by omega) with ⟨e, g1, _⟩ | ⟨rest, doc, v, g1, g2, _⟩
            · rw [g1] at hr; cases hr
            · rw [g1] at hr
              cases hr
              rw [decodeObj_eq _ g2]
              refine bind_ne_ub (elim_ne_ub _) ?_
              intro got _
              simp
          · intro c _
            split
            · simp
            · split
              · simp
              · split
                · simp
                · refine bind_ne_ub ?_ (by intro _ _; simp)
                  unfold validate
                  refine bind_ne_ub (dec_ascii ad) ?_
                  intro mac _
                  split
                  · simp
                  · split <;> simp
      cases hck : check hmac L a.users now q with
      | error e => rw [hck] at hc; intro h; cases h; exact hc rfl
      | ok r =>
        obtain ⟨u, exp⟩ := r
        obtain ⟨t', ha, _⟩ := add_ok hi.ok (Row.murmur q.digest 0, (⟨q.digest, u, exp⟩ : Entry))
        have : cacheAdd (prepare a.cache) ⟨q.digest, u, exp⟩ = some t' := ha
        simp [this]
    · rw [h1]
      simp only
      split <;> simp

/-! ## tokens the server makes -/

theorem encode_chars {s : Bytes} (h : IsBytes s) : ∀ c ∈ Codec.encode Codec.url s, c < 128 ∧ c ≠ 46 := by
  have hd := Codec.C06_base64url_roundtrip s h
  have : ∀ (t : Bytes) (order : Nat) (out : Bytes) (cur : Nat) (r : Bytes), Codec.decLoop Codec.url order out cur t = .ok r →
      ∀ c ∈ t, c < 128 ∧ c ≠ 46 := by
    intro t
    induction t with
    | nil => intro _ _ _ _ _ c hc; cases hc
    | cons x t ih =>
      intro order out cur r hr c hc
      have key : ∀ y : Nat, Codec.url.dec[x]? = some y → y ≠ 255 → x < 128 ∧ x ≠ 46 := by
        intro y hy h255
        have hl : x < 128 := by
          obtain ⟨hl, _⟩ := List.getElem?_eq_some_iff.1 hy
          exact hl
        refine ⟨hl, ?_⟩
        rintro rfl
        have : Codec.url.dec[46]? = some 255 := by decide
        rw [this] at hy; cases hy; exact h255 rfl
      simp only [Codec.decLoop] at hr
      split at hr
      · rename_i hp; simp [Codec.url] at hp
      · split at hr
        · cases hr
        · rename_i y hy
          split at hr
          · cases hr
          · rename_i h255
            rcases List.mem_cons.1 hc with rfl | hc
            · exact key y hy h255
            · split at hr <;> exact ih _ _ _ _ hr c hc
  exact this _ _ _ _ _ hd

theorem encode_ne {s : Bytes} (h : IsBytes s) (hs : s ≠ []) : Codec.encode Codec.url s ≠ [] := by
  intro he
  have hd := Codec.C06_base64url_roundtrip s h
  rw [he] at hd
  cases hd
  exact hs rfl

theorem escape_bytes : ∀ s : Bytes, IsBytes s → IsBytes (Text.escape s)
  | [], _ => by simp [Text.escape, IsBytes]
  | c :: t, h => by
    have ih := escape_bytes t (fun x hx => h x (by simp [hx]))
    have hc := h c (by simp)
    intro x hx
    simp only [Text.escape, List.mem_append] at hx
    rcases hx with hx | hx
    · unfold Text.escapeChar at hx
      repeat' split at hx
      all_goals simp at hx
      all_goals omega
    · exact ih x hx

theorem decDigits_bytes (n : Nat) : IsBytes (Text.decDigits n) := by
  induction n using Nat.strongRecOn with
  | ind n ih =>
    unfold Text.decDigits
    split
    · intro x hx; simp at hx; omega
    · intro x hx
      simp at hx
      rcases hx with hx | hx
      · exact ih (n / 10) (by omega) x hx
      · omega

theorem intText_bytes (i : Int) : IsBytes (Text.intText i) := by
  unfold Text.intText
  split
  · intro x hx
    rcases List.mem_cons.1 hx with rfl | hx
    · omega
    · exact decDigits_bytes _ x hx
  · exact decDigits_bytes _

theorem utf8_bytes {s : Bytes} (h : Text.Utf8 s) : IsBytes s := by
  induction h with
  | nil => simp [IsBytes]
  | one h1 _ ih => intro x hx; rcases List.mem_cons.1 hx with rfl | hx; omega; exact ih x hx
  | two h1 h2 h3 h4 _ ih =>
    intro x hx; simp only [List.mem_cons] at hx
    rcases hx with rfl | rfl | hx
    · omega
    · omega
    · exact ih x hx
  | three h1 h2 h3 h4 h5 h6 _ ih =>
    intro x hx; simp only [List.mem_cons] at hx
    rcases hx with rfl | rfl | rfl | hx
    · omega
    · split at h4 <;> omega
    · omega
    · exact ih x hx
  | four h1 h2 h3 h4 h5 h6 h7 h8 _ ih =>
    intro x hx; simp only [List.mem_cons] at hx
    rcases hx with rfl | rfl | rfl | rfl | hx
    · omega
    · split at h4 <;> omega
    · omega
    · omega
    · exact ih x hx

theorem bytes_append {a b : Bytes} (h1 : IsBytes a) (h2 : IsBytes b) : IsBytes (a ++ b) := by
  intro x hx
  rcases List.mem_append.1 hx with hx | hx
  · exact h1 x hx
  · exact h2 x hx

/-- the payload of a token -/
def claims (name : Bytes) (iat exp : Int) : J := .obj [(str "sub", .str name), (str "iat", .int iat), (str "exp", .int exp)]

theorem claims_text (L : Text.Libc) (name : Bytes) (iat exp : Int) (h : IsBytes name) : IsBytes (Text.textOf L false 0 (claims name iat exp)) := by
  simp only [claims, Text.textOf, Text.textFields, List.isEmpty, if_false, Bool.false_eq_true, if_true]
  have e1 : IsBytes (Text.escape (str "sub")) := escape_bytes _ (by unfold IsBytes; decide)
  have e2 : IsBytes (Text.escape (str "iat")) := escape_bytes _ (by unfold IsBytes; decide)
  have e3 : IsBytes (Text.escape (str "exp")) := escape_bytes _ (by unfold IsBytes; decide)
  have e4 := escape_bytes name h
  have e5 := intText_bytes iat
  have e6 := intText_bytes exp
  repeat' apply bytes_append
  all_goals first | assumption | (unfold IsBytes; decide)

theorem header_parse (L : Text.Libc) : Text.parse L [123, 34, 97, 108, 103, 34, 58, 34, 72, 83, 50, 53, 54, 34, 44, 34, 116, 121, 112, 34, 58, 34, 74, 87, 84, 34, 125] =
  .ok ([], [78, 45, 97, 108, 103, 47, 72, 83, 50, 53, 54, 45, 116, 121, 112, 45, 74, 87, 84, 79]) := rfl
theorem header_json (L : Text.Libc) : jsonOf L headerText = some (.obj [(str "alg", .str (str "HS256")), (str "typ", .str (str "JWT"))]) := by
  have e : headerText = [123, 34, 97, 108, 103, 34, 58, 34, 72, 83, 50, 53, 54, 34, 44, 34, 116, 121, 112, 34, 58, 34, 74, 87, 84, 34, 125] := by decide
  have d : Json.decode [78, 45, 97, 108, 103, 47, 72, 83, 50, 53, 54, 45, 116, 121, 112, 45, 74, 87, 84, 79] =
    .ok (.obj [(str "alg", .str (str "HS256")), (str "typ", .str (str "JWT"))], []) := by rfl
  simp only [jsonOf, e, header_parse, d]

theorem claim_last {fs pre post : List (Bytes × J)} {name s : Bytes} (h : fs = pre ++ (name, .str s) :: post)
    (h1 : ∀ x ∈ pre, x.1 ≠ name) (h2 : ∀ x ∈ post, x.1 ≠ name) : StrClaim fs name s := by
  subst h
  refine ⟨?_, pre, post, rfl, fun v hv => h2 _ hv rfl⟩
  intro v hv
  simp at hv
  rcases hv with hv | hv | hv
  · exact absurd rfl (h1 _ hv)
  · exact ⟨s, hv⟩
  · exact absurd rfl (h2 _ hv)

theorem claim_lasti {fs pre post : List (Bytes × J)} {name : Bytes} {i : Int} (h : fs = pre ++ (name, .int i) :: post)
    (h1 : ∀ x ∈ pre, x.1 ≠ name) (h2 : ∀ x ∈ post, x.1 ≠ name) : IntClaim fs name i := by
  subst h
  refine ⟨?_, pre, post, rfl, fun v hv => h2 _ hv rfl⟩
  intro v hv
  simp at hv
  rcases hv with hv | hv | hv
  · exact absurd rfl (h1 _ hv)
  · exact ⟨i, hv⟩
  · exact absurd rfl (h2 _ hv)

theorem header_ok (L : Text.Libc) : HeaderOk L (Codec.encode Codec.url headerText) := by
  refine ⟨headerText, _, str "HS256", str "JWT", Codec.C06_base64url_roundtrip _ (by unfold IsBytes; decide), header_json L, ?_, ?_, by decide, by decide⟩
  · exact claim_last (pre := []) (post := [(str "typ", .str (str "JWT"))]) rfl (by simp) (by simp; decide)
  · exact claim_last (pre := [(str "alg", .str (str "HS256"))]) (post := []) rfl (by simp; decide) (by simp)

/-- the parts of a token that is signed with `secret` -/
def signed (hmac : Bytes → Bytes → Bytes) (L : Text.Libc) (name secret : Bytes) (iat exp : Int) : Bytes :=
  let text := Codec.encode Codec.url headerText ++ 46 :: Codec.encode Codec.url (Text.textOf L false 0 (claims name iat exp))
  text ++ 46 :: Codec.encode Codec.url (hmac secret text)

structure CreateOk (name : Bytes) (iat exp : Int) : Prop where
  utf8 : Text.Utf8 name
  len : name.length < 2 ^ 31
  hiat : 0 < iat ∧ iat < 2 ^ 63
  hexp : iat ≤ exp ∧ exp < 2 ^ 63

theorem CreateOk.text {name : Bytes} {iat exp : Int} (h : CreateOk name iat exp) : Text.TextOK (claims name iat exp) := by
  have a := h.hiat
  have b := h.hexp
  simp only [claims, Text.TextOK, Text.TextOKFields]
  have u : ∀ s, (∀ c ∈ s, c < 128) → Text.Utf8 s := by
    intro s
    induction s with
    | nil => intro _; exact .nil
    | cons c t ih => intro hc; exact .one (hc c (by simp)) (ih (fun c h => hc c (by simp [h])))
  refine ⟨⟨u _ (by decide), by decide⟩, ⟨h.utf8, h.len⟩, ⟨u _ (by decide), by decide⟩, ⟨by omega, by omega⟩,
    ⟨u _ (by decide), by decide⟩, ⟨by omega, by omega⟩, trivial⟩

theorem CreateOk.wf {name : Bytes} {iat exp : Int} (h : CreateOk name iat exp) : Json.WF (claims name iat exp) := by
  have a := h.hiat
  have b := h.hexp
  simp only [claims, Json.WF, Json.WFFields]
  exact ⟨⟨by unfold IsBytes; decide, by decide⟩, ⟨utf8_bytes h.utf8, h.len⟩, ⟨by unfold IsBytes; decide, by decide⟩, ⟨by omega, by omega⟩,
    ⟨by unfold IsBytes; decide, by decide⟩, ⟨by omega, by omega⟩, trivial⟩

theorem claims_json (L : Text.Libc) {name : Bytes} {iat exp : Int} (h : CreateOk name iat exp) :
    Text.export_ L false (enc (claims name iat exp)) = .ok (Text.textOf L false 0 (claims name iat exp), []) ∧
    (∃ p, Text.parse L (Text.textOf L false 0 (claims name iat exp)) = .ok p) ∧
    jsonOf L (Text.textOf L false 0 (claims name iat exp)) = some (claims name iat exp) := by
  obtain ⟨text, doc, h1, h2, h3⟩ := Text.C39_text_roundtrip_partial L false _ h.wf h.text [] [] trivial
  have hp := Text.parse_textOf L false _ h.text [] trivial 0
  rw [List.append_nil] at h1 h2 hp
  have he := Text.export_enc L false _ h.wf ((enc (claims name iat exp) ++ []).length + 1) 0 [] (by simp)
  rw [Text.stored_textOK _ h.text] at he
  have he : Text.export_ L false (enc (claims name iat exp)) = .ok (Text.textOf L false 0 (claims name iat exp), []) := by
    simpa [Text.export_] using he
  rw [he] at h1
  cases h1
  have h3 := h3 []
  rw [List.append_nil] at h3
  exact ⟨he, ⟨_, h2⟩, by simp only [jsonOf, h2, h3]⟩

theorem signed_valid (hmac : Bytes → Bytes → Bytes) (hm : ∀ s t, (hmac s t).length = 32 ∧ IsBytes (hmac s t)) (L : Text.Libc)
    (u : User) (users : List User) (hu : users.find? (fun w => decide (w.name = u.name)) = some u)
    (iat exp now : Int) (h : CreateOk u.name iat exp) (hn : now < exp) :
    Valid hmac L users now (str "Bearer " ++ signed hmac L u.name u.secret iat exp) u exp := by
  have hb := claims_text L u.name iat exp (utf8_bytes h.utf8)
  have hh : IsBytes headerText := by unfold IsBytes; decide
  have a := h.hiat
  have b := h.hexp
  refine ⟨Codec.encode Codec.url headerText, Codec.encode Codec.url (Text.textOf L false 0 (claims u.name iat exp)),
    Codec.encode Codec.url (hmac u.secret (Codec.encode Codec.url headerText ++ 46 :: Codec.encode Codec.url (Text.textOf L false 0 (claims u.name iat exp)))), iat,
    by simp [signed], encode_ne hh (by decide), encode_ne hb (by simp [claims, Text.textOf]), encode_ne (hm _ _).2 ?_,
    fun hc => (encode_chars hh _ hc).2 rfl, fun hc => (encode_chars hb _ hc).2 rfl, header_ok L, ?_, by omega, by omega, by omega, hn, hu, ?_⟩
  · intro he
    have := (hm u.secret (Codec.encode Codec.url headerText ++ 46 :: Codec.encode Codec.url (Text.textOf L false 0 (claims u.name iat exp)))).1
    rw [he] at this; cases this
  · refine ⟨_, _, Codec.C06_base64url_roundtrip _ hb, (claims_json L h).2.2, ?_, ?_, ?_⟩
    · exact claim_last (pre := []) (post := [(str "iat", .int iat), (str "exp", .int exp)]) rfl (by simp) (by simp; decide)
    · exact claim_lasti (pre := [(str "sub", .str u.name)]) (post := [(str "exp", .int exp)]) rfl (by simp; decide) (by simp; decide)
    · exact claim_lasti (pre := [(str "sub", .str u.name), (str "iat", .int iat)]) (post := []) rfl (by simp; decide) (by simp)
  · simp only [List.append_assoc, List.singleton_append]
    exact Codec.C06_base64url_roundtrip _ (hm _ _).2

/-- **C83**: a token that the server makes for a user it knows, with a name in UTF-8 and a secret, is valid until it expires. -/
theorem C83_created (hmac : Bytes → Bytes → Bytes) (hm : ∀ s t, (hmac s t).length = 32 ∧ IsBytes (hmac s t)) (L : Text.Libc)
    (hL : Text.LibcOk L) (u : User) (users : List User) (hu : users.find? (fun w => decide (w.name = u.name)) = some u)
    (hsec : u.secret ≠ []) (iat exp now : Int) (h : CreateOk u.name iat exp) (hn : now < exp) :
    ∃ token, jwtCreate hmac L u.name u.secret iat exp = .ok token ∧ Valid hmac L users now (str "Bearer " ++ token) u exp := by
  refine ⟨signed hmac L u.name u.secret iat exp, ?_, signed_valid hmac hm L u users hu iat exp now h hn⟩
  obtain ⟨h1, ⟨p, h2⟩, h3⟩ := claims_json L h
  unfold jwtCreate
  rw [if_neg hsec]
  have h1 : Text.export_ L false (enc (.obj [(str "sub", .str u.name), (str "iat", .int iat), (str "exp", .int exp)])) =
    .ok (Text.textOf L false 0 (claims u.name iat exp), []) := h1
  rw [h1]
  simp only [Except.bind, jwtEncode]
  have hc : checkHeader L headerText = .ok () := by
    refine (checkHeader_iff L hL headerText (by decide)).2 ?_
    refine ⟨_, str "HS256", str "JWT", header_json L, ?_, ?_, by decide, by decide⟩
    · exact claim_last (pre := []) (post := [(str "typ", .str (str "JWT"))]) rfl (by simp) (by simp; decide)
    · exact claim_last (pre := [(str "alg", .str (str "HS256"))]) (post := []) rfl (by simp; decide) (by simp)
  rw [hc]
  simp only
  rw [h2]
  rfl

/-- **C83**: no token is made for a user without a secret -/
theorem C83_no_secret_no_token (hmac : Bytes → Bytes → Bytes) (L : Text.Libc) (name : Bytes) (iat exp : Int) :
    jwtCreate hmac L name [] iat exp = .error .err := rfl

/-! ## what is not so -/

theorem cacheFind_absent {s : Ht Entry} {l : List (Nat × Entry)} (h : Has s l) (digest : Bytes) (hv : ∀ x ∈ l, x.2.digest ≠ digest) :
    cacheFind s digest = some none := by
  unfold cacheFind
  exact get_absent h _ _ (by intro v hm; simpa using hv _ hm)

theorem cacheFind_one {s : Ht Entry} {e : Entry} (h : Has s [(Row.murmur e.digest 0, e)]) :
    ∃ pos, cacheFind s e.digest = some (some (pos, e)) := by
  unfold cacheFind
  exact get_found h _ _ e (by simp) (by simp) (by intro w hw _; simpa using hw)

theorem prepare_none : ∃ s, prepare none = s ∧ Has s [] := ⟨_, rfl, create_has 256 (by decide)⟩

theorem login_new {hmac : Bytes → Bytes → Bytes} {L : Text.Libc} {now : Int} {a : Auth} {token : Bytes} {q : Parts} {s c : Ht Entry} {u : User} {exp : Int}
    (h1 : jwtDecode token = .ok q) (h2 : prepare a.cache = s) (h3 : cacheFind s q.digest = some none)
    (h4 : check hmac L a.users now q = .ok (u, exp)) (h5 : cacheAdd s ⟨q.digest, u, exp⟩ = some c) :
    authRun hmac L now a token = (.ok u, { a with cache := some c }) := by
  subst h2
  simp only [authRun, h1, h3, h4, h5]

theorem login_cached {hmac : Bytes → Bytes → Bytes} {L : Text.Libc} {now : Int} {a : Auth} {token : Bytes} {q : Parts} {s : Ht Entry} {e : Entry} {pos : Nat}
    (h1 : jwtDecode token = .ok q) (h2 : prepare a.cache = s) (h3 : cacheFind s q.digest = some (some (pos, e))) (h4 : now < e.expire) :
    (authRun hmac L now a token).1 = .ok e.user := by
  subst h2
  simp only [authRun, h1, h3, h4, if_true]

/-- **C83 fails**: a token that was accepted once lets in anything with its last part: the header and the payload in front of it
can be any text, they are neither decoded nor checked. -/
theorem C83_forged_false (hmac : Bytes → Bytes → Bytes) (hm : ∀ s t, (hmac s t).length = 32) (L : Text.Libc) (hL : Text.LibcOk L)
    (users : List User) (now : Int) (h p digest : Bytes) (u : User) (exp : Int)
    (hb : (str "Bearer " ++ h ++ [46] ++ p ++ [46] ++ digest).length < 2 ^ 31) (hd : 46 ∉ h) (hp : 46 ∉ p) (hne : h ≠ [] ∧ p ≠ []) (hne3 : digest ≠ [])
    (hv : Valid hmac L users now (str "Bearer " ++ h ++ [46] ++ p ++ [46] ++ digest) u exp)
    (h' p' : Bytes) (hd' : 46 ∉ h') (hp' : 46 ∉ p') (hne' : h' ≠ [] ∧ p' ≠ []) (now' : Int) (hn : now' < exp) :
    (authRun hmac L now' (after hmac L start [.sync users, .login now (str "Bearer " ++ h ++ [46] ++ p ++ [46] ++ digest)])
      (str "Bearer " ++ h' ++ [46] ++ p' ++ [46] ++ digest)).1 = .ok u := by
  have hq := (jwtDecode_iff (str "Bearer " ++ h ++ [46] ++ p ++ [46] ++ digest) ⟨h, p, digest, h ++ [46] ++ p⟩).2 ⟨rfl, hne.1, hne.2, hne3, hd, hp, rfl⟩
  have hq' := (jwtDecode_iff (str "Bearer " ++ h' ++ [46] ++ p' ++ [46] ++ digest) ⟨h', p', digest, h' ++ [46] ++ p'⟩).2 ⟨rfl, hne'.1, hne'.2, hne3, hd', hp', rfl⟩
  have hc := (check_iff hmac hm L hL (userSync [] users) now _ hb _ hq u exp).2 (valid_users (fun n => (findUser_sync [] users n).symm) hv)
  obtain ⟨s0, hs0, hs1⟩ := prepare_none
  obtain ⟨c1, hc1, hc2⟩ := add_has hs1 (Row.murmur digest 0, ⟨digest, u, exp⟩)
  have hadd : cacheAdd s0 ⟨digest, u, exp⟩ = some c1 := hc1
  have hfind : cacheFind s0 digest = some none := cacheFind_absent hs1 digest (by intro x hx; cases hx)
  obtain ⟨pos, hget⟩ := cacheFind_one (e := ⟨digest, u, exp⟩) hc2
  have e1 := login_new (hmac := hmac) (L := L) (a := authSync start users) hq hs0 hfind hc hadd
  simp only [after]
  rw [e1]
  exact login_cached (e := ⟨digest, u, exp⟩) hq' rfl hget hn

/-- **C83 fails**: a user without a secret (CREATE USER without SECRET) is open to everybody: the token below is made from its
name and the code under the empty key, which anyone can compute. -/
theorem C83_empty_secret_false (hmac : Bytes → Bytes → Bytes) (hm : ∀ s t, (hmac s t).length = 32 ∧ IsBytes (hmac s t)) (L : Text.Libc)
    (hL : Text.LibcOk L) (name : Bytes) (users : List User) (hu : users.find? (fun w => decide (w.name = name)) = some ⟨name, []⟩)
    (iat exp now : Int) (h : CreateOk name iat exp) (hn : now < exp)
    (hb : (str "Bearer " ++ signed hmac L name [] iat exp).length < 2 ^ 31) :
    (authRun hmac L now (after hmac L start [.sync users]) (str "Bearer " ++ signed hmac L name [] iat exp)).1 = .ok ⟨name, []⟩ := by
  have hv := signed_valid hmac hm L ⟨name, []⟩ users hu iat exp now h hn
  exact (C83_after_sync hmac (fun s t => (hm s t).1) L hL [] (by intro _ _ hk; cases hk) users now _ hb ⟨name, []⟩).2 ⟨exp, hv⟩

/-- **C83 fails**: the project's own client writes `Bearer` without the space after it, so the server refuses every token it
sends, whatever the token (here: any that does not begin with a space itself). -/
theorem C83_own_client_false (hmac : Bytes → Bytes → Bytes) (L : Text.Libc) (now : Int) (a : Auth) (trusted : Bool) (o : Out) (n : Nat)
    (ht : o.token ≠ []) (hsp : o.token.head? ≠ some 32) :
    (refused hmac L now a trusted (ownHead o n).headers).1 = true := by
  have hf : httpFind (ownHead o n).headers (str "Authorization") = some (str "Bearer" ++ o.token) := by
    have e : str "Bearer" = str' "Bearer" := by decide
    have e2 : isCase (str' "Authorization") (str "Authorization") = true := by decide
    rw [e]
    simp [ownHead, ht, httpFind, List.find?_cons, e2]
  unfold refused
  rw [hf]
  simp only
  have hj : jwtDecode (str "Bearer" ++ o.token) = .error .err := by
    unfold jwtDecode
    rw [if_pos]
    intro he
    cases ht' : o.token with
    | nil => exact ht ht'
    | cons c t =>
      rw [ht'] at he hsp
      have hl : (str "Bearer").length = 6 := by decide
      have : (str "Bearer" ++ c :: t).take 7 = str "Bearer" ++ [c] := by
        rw [show 7 = (str "Bearer").length + 1 by rw [hl], List.take_length_add_append]; rfl
      rw [this] at he
      have e3 : str "Bearer " = str "Bearer" ++ [32] := by decide
      rw [e3] at he
      have := List.append_cancel_left he
      simp at this hsp
      exact hsp this
  simp [authRun, hj]

/-- **C83 fails**: before anything is known about the client, a token whose first part has a byte of 128 or more makes the server
read beyond its base64 table. -/
theorem C83_high_byte_false (hmac : Bytes → Bytes → Bytes) (L : Text.Libc) (now : Int) (users : List User) :
    (authRun hmac L now (after hmac L start [.sync users]) (str "Bearer " ++ [200, 46, 97, 46, 97])).1 = .error .ub := by
  have hq : jwtDecode (str "Bearer " ++ [200, 46, 97, 46, 97]) = .ok ⟨[200], [97], [97], [200, 46, 97]⟩ := rfl
  obtain ⟨s0, hs0, hs1⟩ := prepare_none
  have hfind : cacheFind s0 [97] = some none := cacheFind_absent hs1 _ (by intro x hx; cases hx)
  have hc : check hmac L (userSync [] users) now ⟨[200], [97], [97], [200, 46, 97]⟩ = .error .ub := by
    have : Codec.decode Codec.url [200] = .error .ub := by decide
    simp [check, decodeHeader, this, Except.bind]
  simp only [after, authSync, start, authRun, hs0, hq, hfind, hc]

/-! ## the hypotheses are met -/

/-- a code function that depends on both its arguments -/
def toyHmac (s t : Bytes) : Bytes := List.replicate 32 ((s ++ t).sum % 256)
def toyLibc : Text.Libc := ⟨fun _ => [], fun _ => none⟩

example : (∀ s t, (toyHmac s t).length = 32 ∧ IsBytes (toyHmac s t)) ∧ Text.LibcOk toyLibc ∧
    CreateOk (str "alice") 100 200 := by
  refine ⟨?_, ?_, ?_⟩
  · intro s t
    refine ⟨by simp [toyHmac], ?_⟩
    intro x hx
    simp [toyHmac] at hx
    omega
  · intro s b r h; cases h
  · refine ⟨?_, by decide, by decide, by decide⟩
    simp only [str]
    exact .one (by decide) (.one (by decide) (.one (by decide) (.one (by decide) (.one (by decide) .nil))))


/-- a token for alice is made and lets her in -/
example : ∃ token, jwtCreate toyHmac toyLibc (str "alice") (str "x") 100 200 = .ok token ∧
    Valid toyHmac toyLibc [⟨str "bob", []⟩, ⟨str "alice", str "x"⟩] 150 (str "Bearer " ++ token) ⟨str "alice", str "x"⟩ 200 := by
  refine C83_created toyHmac ?_ toyLibc ?_ ⟨str "alice", str "x"⟩ [⟨str "bob", []⟩, ⟨str "alice", str "x"⟩] ?_ (by decide) 100 200 150 ?_ (by decide)
  · intro s t
    refine ⟨by simp [toyHmac], ?_⟩
    intro x hx
    simp [toyHmac] at hx
    omega
  · intro s b r h; cases h
  · decide
  · refine ⟨?_, by decide, by decide, by decide⟩
    simp only [str]
    exact .one (by decide) (.one (by decide) (.one (by decide) (.one (by decide) (.one (by decide) .nil))))

end Verif.Net.Auth
