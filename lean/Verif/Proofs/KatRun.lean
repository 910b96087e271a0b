import Verif.Proofs.KatFile
import Verif.Props.Api
/-!
# The test-vector program: reading the requests back, and the responses
-/
namespace LESS.Kat
open LESS Spec Spec.Kat

variable {p : Params}

/-- One run of the scheme: keys and signature from a generator seeded with `seed` alone, and what opening the signed
message returns. -/
structure KatRun (p : Params) (fuel i : Nat) (seed msg resp : Bytes) (ok : Bool) where
  slk : Nat → Stale p
  sls : Nat → Stale p
  slv : Nat → Stale p
  pk : Vector UInt8 p.pkLen
  sk : Vector UInt8 p.skLen
  rng : Inc
  rng' : Inc
  k : Nat
  sm0 : Vector UInt8 k
  sm : Vector UInt8 k
  smlen : Nat
  mcap : Nat
  cap : msg.length + p.sigLen ≤ k
  fits : smlen ≤ msg.length + p.sigLen
  keygen : cryptoSignKeypair fuel slk (initCsprng p seed) = .ok (pk, sk, rng)
  sign : cryptoSign fuel sls rng sm0 msg sk = .ok (sm, smlen, rng')
  opened : cryptoSignOpen fuel slv mcap (firstBytes sm smlen) pk = .ok (if ok then (0, some msg) else (-1, none))
  accepted : ok = true ↔ (g sm (smlen - 1)).toNat < p.maxPublishedSeeds
  resp : resp = response i seed msg pk.toList sk.toList (seg sm 0 smlen)

theorem rngOk_keygen (hp : p.WF) {fuel : Nat} {sl : Nat → Stale p} {rng : Inc} (hr : RngOk p rng) {pk : Vector UInt8 p.pkLen}
    {sk : Vector UInt8 p.skLen} {rng' : Inc} (h : cryptoSignKeypair fuel sl rng = .ok (pk, sk, rng')) : RngOk p rng' := by
  obtain ⟨s, hs⟩ := exists_stream p rng hr
  exact ((cryptoSignKeypair_wp hp fuel sl rng s hs).of_ok h).2.2.1

/-- What follows the fields of a request. -/
def tailText : Bytes := text "pk =\nsk =\nsmlen =\nsm =\n\n"

theorem toVec_toList' {l : Bytes} {n : Nat} (h : l.length = n) : (toVec n l).toList = l := toVec_toList h

theorem pkLen_pos (p : Params) : 0 < p.pkLen := by
  have := p.seedLen_bounds
  unfold Params.pkLen; omega

theorem skLen_pos (p : Params) : 0 < p.skLen := by
  have := p.seedLen_bounds
  unfold Params.skLen; omega

theorem sigLen_small (hp : p.WF) : p.sigLen < 2 ^ 41 := by
  have h := hp.cryptoBytes_lt hp.storage_le
  have e := fixedLen_cryptoBytes (p := p) p.maxPublishedSeeds
  have d := hp.storage_dvd
  have hsl : p.sigLen = p.fixedLen + p.storageLen := rfl
  have hst : p.storageLen = p.maxPublishedBytes + 1 := rfl
  omega

/-- The scheme returns for this request: for some contents of uninitialised memory there is a run. -/
def Runs (p : Params) (fuel : Nat) (seed msg : Bytes) : Prop := ∃ i resp ok, Nonempty (KatRun p fuel i seed msg resp ok)

/-- What one run finished can be finished again. -/
theorem Runs.fits (hp : p.WF) {fuel : Nat} {seed msg : Bytes} (h : Runs p fuel seed msg) {s : Stream}
    (hs : StreamAt p (initCsprng p seed) s) : KeyFits p fuel (skOf p s) ∧
      SignerFits p fuel (skOf p s) (rootOf p (s.drop (p.skSeedLen + p.seedLen))) msg (saltOf p (s.drop (p.skSeedLen + p.seedLen))) := by
  obtain ⟨_, _, _, ⟨r⟩⟩ := h
  obtain ⟨h1, h2, h3⟩ := (cryptoSignKeypair_wp hp fuel r.slk _ s hs).of_ok r.keygen
  dsimp only at h1 h2 h3
  have hk := h2.fits hp
  refine ⟨hk, ?_⟩
  obtain ⟨⟨⟨c, c1, c2, c3, c4, c5, c6, c7⟩, _, _⟩, _⟩ := (cryptoSign_wp hp fuel r.sls r.rng r.sm0 msg r.sk _ h3 r.cap).of_ok r.sign
  dsimp only at c5 c6
  rw [h1] at c5
  have := c5.fits hk
  rwa [c6] at this

theorem seg_toList {n : Nat} (v : Vector UInt8 n) : seg v 0 n = v.toList := seg_full v

theorem responseBody_wp (hp : p.WF) (fuel : Nat) (sl : KatStale p) (i : Nat) (seed msg rest rsp : Bytes)
    (h0 : 0 < msg.length) (hm : msg.length ≤ 4000) :
    Wp (¬ Runs p fuel seed msg) (responseBody fuel sl (initCsprng p seed) (text "\n" ++ (text "msg = " ++ (hexText msg ++ 10 :: rest))) rsp msg.length)
      (fun r => ∃ tl ok, Nonempty (KatRun p fuel i seed msg
        (field "count = " (decimal i) ++ field "seed = " (hexText seed) ++ field "mlen = " (decimal msg.length) ++ tl) ok) ∧
        r = if ok then .inr (rest, rsp ++ tl) else .inl (-4, rsp ++ tl)) := by
  have h41 := sigLen_small hp
  unfold responseBody
  rw [ascii_eq, readHex_written sl.line _ (text "msg = ") (text "\n") msg rest h0 (by omega) (by omega) (by decide) (by decide)
    (by decide) (by decide), ok_bind]
  have hb : blitV (Vector.replicate msg.length 0) 0 msg = toVec msg.length msg := by
    apply vec_ext
    intro j hj
    rw [g_blitV _ _ _ _ hj, if_pos (by omega), g_toVec _ _ _ hj, Nat.sub_zero]
  have hml : (toVec msg.length msg).toList = msg := toVec_toList rfl
  dsimp only
  rw [if_neg (by decide), hb, fprintBstr_eq _ _ _ (by omega) h0, ok_bind, seg_toList, hml, Wp.bind_iff]
  have hr := initCsprng_ok p seed
  obtain ⟨s, hs⟩ := exists_stream p _ hr
  refine (Wp.self (((cryptoSignKeypair_wp hp fuel sl.keygen _ s hs).monoF
    (fun hF hrun => hF (hrun.fits hp hs).1)).mono fun _ _ => trivial)).mono ?_
  rintro ⟨pk, sk, rng⟩ hkey
  dsimp only
  have hr' := rngOk_keygen hp hr hkey
  obtain ⟨k1, k2, hs'⟩ := (cryptoSignKeypair_wp hp fuel sl.keygen _ s hs).of_ok hkey
  dsimp only at k1 hs'
  rw [fprintBstr_eq _ _ _ (Nat.le_refl _) (pkLen_pos p), ok_bind, fprintBstr_eq _ _ _ (Nat.le_refl _) (skLen_pos p), ok_bind,
    Wp.bind_iff]
  refine (Wp.self (((cryptoSign_wp hp fuel sl.sign rng (Vector.replicate (msg.length + p.sigLen) 0) msg sk _ hs'
    (Nat.le_refl _)).monoF (fun hF hrun => hF (k1 ▸ (hrun.fits hp hs).2))).mono fun _ _ => trivial)).mono ?_
  rintro ⟨sm, smlen, rng'⟩ hsig
  dsimp only
  obtain ⟨root, salt, hsm⟩ := sign_signedMessage hp hr' (Nat.le_refl _) hsig
  obtain ⟨hl1, hl2⟩ := hsm.smlen_le
  rw [fprintBstr_eq _ _ _ hl2 (by omega), ok_bind, slice_eq, if_pos (by omega), ok_bind]
  have hopen := C02_round_trip_partial hp (Nat.le_refl fuel) (Nat.le_refl fuel) hr hr' hkey (Nat.le_refl _) (by omega) hsig
    sl.verify (mcap := msg.length + p.sigLen) (by omega)
  have hopen' := hopen
  unfold firstBytes at hopen
  rw [hopen, ok_bind]
  have hseg : (seg sm 0 smlen).length = smlen := by simp
  have run : ∀ ok : Bool, (ok = true ↔ (g sm (smlen - 1)).toNat < p.maxPublishedSeeds) → Nonempty (KatRun p fuel i seed msg
      (field "count = " (decimal i) ++ field "seed = " (hexText seed) ++ field "mlen = " (decimal msg.length) ++
        (field "msg = " (hexText msg) ++ field "pk = " (hexText pk.toList) ++ field "sk = " (hexText sk.toList) ++
    field "smlen = " (decimal smlen) ++ field "sm = " (hexText (seg sm 0 smlen)) ++ text "\n")) ok) := by
    intro ok hok
    refine ⟨⟨sl.keygen, sl.sign, sl.verify, pk, sk, rng, rng', _, _, sm, smlen, msg.length + p.sigLen, Nat.le_refl _, hl2, hkey,
      hsig, ?_, hok, ?_⟩⟩
    · rw [hopen']
      congr 1
      exact if_congr hok.symm rfl rfl
    · unfold response
      rw [hseg]
      simp only [List.append_assoc]
  have htext : rsp ++ (text "msg = " ++ hexText msg ++ text "\n") ++ (ascii "pk = " ++ hexText (seg pk 0 p.pkLen) ++ text "\n") ++
      (ascii "sk = " ++ hexText (seg sk 0 p.skLen) ++ text "\n") ++ ascii "smlen = " ++ dec smlen ++ ascii "\n" ++
      (ascii "sm = " ++ hexText (seg sm 0 smlen) ++ text "\n") ++ ascii "\n" = rsp ++ (field "msg = " (hexText msg) ++
      field "pk = " (hexText pk.toList) ++ field "sk = " (hexText sk.toList) ++
      field "smlen = " (decimal smlen) ++ field "sm = " (hexText (seg sm 0 smlen)) ++ text "\n") := by
    rw [seg_toList, seg_toList, dec_eq]
    unfold field
    simp only [List.append_assoc, ascii_eq]
  rw [htext]
  by_cases hacc : (g sm (smlen - 1)).toNat < p.maxPublishedSeeds
  · rw [if_pos hacc, if_neg (by simp)]
    dsimp only
    rw [if_neg (by simp), if_neg (by simp)]
    exact ⟨_, true, run true (by simp [hacc]), rfl⟩
  · rw [if_neg hacc, if_pos (by simp)]
    exact ⟨_, false, run false (by simp [hacc]), rfl⟩

theorem responseStep_wp (hp : p.WF) (fuel : Nat) (sl : KatStale p) (v : KatVars) (i : Nat) (pre seed msg rest rsp : Bytes)
    (hpre : Clean pre (text "count = ")) (hi : i ≤ 100) (hseed : seed.length = 48) (h0 : 0 < msg.length) (hm : msg.length ≤ 4000) :
    Wp (¬ Runs p fuel seed msg) (responseStep fuel sl v (pre ++ (request i seed msg ++ rest)) rsp)
      (fun r => ∃ resp ok, Nonempty (KatRun p fuel i seed msg resp ok) ∧
        if ok then ∃ v', r = .inr (v', tailText ++ rest, rsp ++ resp) else r = .inl (-4, rsp ++ resp)) := by
  have e0 : pre ++ (request i seed msg ++ rest) = pre ++ (text "count = " ++ (dec i ++ 10 :: (text "seed = " ++
      (hexText seed ++ 10 :: (text "mlen = " ++ (dec msg.length ++ 10 :: (text "msg = " ++ (hexText msg ++ 10 ::
        (tailText ++ rest))))))))) := by
    unfold request field tailText
    rw [dec_eq, dec_eq, show text "\n" = [10] from by decide]
    simp only [List.append_assoc, List.cons_append, List.nil_append]
  unfold responseStep
  simp only [ascii_eq]
  rw [e0, findMarker_written sl.line _ _ _ (by decide) (by decide) (by decide) hpre, ok_bind]
  dsimp only
  unfold fscanInt
  rw [if_neg (by decide), fscanDec_eq]
  dsimp only
  rw [if_neg (by unfold intMax; omega), show (pure (1, i, (10 : UInt8) :: (text "seed = " ++
      (hexText seed ++ 10 :: (text "mlen = " ++ (dec msg.length ++ 10 :: (text "msg = " ++ (hexText msg ++ 10 ::
        (tailText ++ rest)))))))) : C (Int × Nat × Bytes)) = .ok _ from rfl, ok_bind]
  dsimp only
  rw [if_neg (by decide)]
  have e1 := readHex_written sl.line v.seed (text "seed = ") (text "\n") seed (text "mlen = " ++ (dec msg.length ++ 10 ::
    (text "msg = " ++ (hexText msg ++ 10 :: (tailText ++ rest))))) (by omega) (by omega) (by omega) (by decide) (by decide)
    (by decide) (by decide)
  rw [hseed, show ∀ r, text "\n" ++ r = 10 :: r from fun r => rfl] at e1
  rw [e1, ok_bind]
  have hb : blitV v.seed 0 seed = toVec 48 seed := by
    apply vec_ext
    intro j hj
    rw [g_blitV _ _ _ _ hj, if_pos (by omega), g_toVec _ _ _ hj, Nat.sub_zero]
  have hml : (toVec 48 seed).toList = seed := toVec_toList hseed
  dsimp only
  have e2 := findMarker_written sl.line (text "mlen = ") [] (dec msg.length ++ 10 ::
    (text "msg = " ++ (hexText msg ++ 10 :: (tailText ++ rest)))) (by decide) (by decide) (by decide) (by decide)
  rw [List.nil_append] at e2
  rw [if_neg (by decide), hb, fprintBstr_eq _ _ _ (by omega) (by omega), ok_bind, seg_toList, hml, e2, ok_bind]
  dsimp only
  rw [if_neg (by decide)]
  unfold fscanULL
  rw [fscanDec_eq]
  dsimp only
  rw [if_neg (by decide), if_neg (by omega), Wp.bind_iff]
  have e3 := responseBody_wp hp fuel sl i seed msg (tailText ++ rest) (rsp ++ text "count = " ++ dec i ++ text "\n" ++
    (text "seed = " ++ hexText seed ++ text "\n") ++ text "mlen = " ++ dec msg.length ++ text "\n") h0 hm
  rw [show ∀ r, text "\n" ++ r = 10 :: r from fun r => rfl] at e3
  refine e3.mono ?_
  rintro r ⟨tl, ok, hrun, hr⟩
  have htext : rsp ++ text "count = " ++ dec i ++ text "\n" ++ (text "seed = " ++ hexText seed ++ text "\n") ++ text "mlen = " ++
      dec msg.length ++ text "\n" ++ tl = rsp ++ (field "count = " (decimal i) ++ field "seed = " (hexText seed) ++
        field "mlen = " (decimal msg.length) ++ tl) := by
    rw [dec_eq, dec_eq]
    unfold field
    simp only [List.append_assoc]
  rw [htext] at hr
  subst hr
  cases ok with
  | true => exact ⟨_, true, hrun, _, rfl⟩
  | false => exact ⟨_, false, hrun, rfl⟩

/-- The responses to the requests `i, i + 1, …, i + k - 1`: every request is answered with one run of the scheme; the
first run whose signed message is refused by `crypto_sign_open` is the last one, and the program returns -4. -/
def Responses (p : Params) (fuel : Nat) (E : Cipher) : (k i : Nat) → Int → Bytes → Prop
  | 0, _, ret, out => ret = 0 ∧ out = []
  | k + 1, i, ret, out => ∃ resp ok, Nonempty (KatRun p fuel i (requestSeed E i) (requestMsg E i) resp ok) ∧
      if ok then ∃ out', Responses p fuel E k (i + 1) ret out' ∧ out = resp ++ out' else ret = -4 ∧ out = resp

/-- The requests `i, …, i + k - 1`. -/
def requestsFrom (E : Cipher) : (k i : Nat) → Bytes
  | 0, _ => []
  | k + 1, i => request i (requestSeed E i) (requestMsg E i) ++ requestsFrom E k (i + 1)

theorem requestsFrom_eq (E : Cipher) : ∀ k i, requests E i ++ requestsFrom E k i = requests E (i + k) := by
  intro k
  induction k with
  | zero => intro i; exact List.append_nil _
  | succ k ih =>
    intro i
    rw [requestsFrom, ← List.append_assoc, ← requests_succ, ih, show i + 1 + k = i + (k + 1) by omega]

theorem responseLoop_wp (hp : p.WF) (fuel : Nat) (sl : Nat → KatStale p) (E : Cipher) : ∀ (k i iter : Nat) (v : KatVars)
    (pre rsp : Bytes), k < iter → i + k ≤ 100 → Clean pre (text "count = ") → afterFirst (text "count = ") pre = none →
    Wp (¬ ∀ j, i ≤ j → j < i + k → Runs p fuel (requestSeed E j) (requestMsg E j)) (responseLoop fuel sl iter v (pre ++ requestsFrom E k i) rsp)
      (fun r => ∃ out, Responses p fuel E k i r.1 out ∧ r.2 = rsp ++ out) := by
  intro k
  induction k with
  | zero =>
    intro i iter v pre rsp hk hi hc hn
    obtain ⟨iter, rfl⟩ : ∃ j, iter = j + 1 := ⟨iter - 1, by omega⟩
    rw [requestsFrom, List.append_nil, responseLoop, responseStep, ascii_eq, findMarker_eq _ _ _ (by decide) (by decide), hn]
    exact ⟨[], ⟨rfl, rfl⟩, (List.append_nil _).symm⟩
  | succ k ih =>
    intro i iter v pre rsp hk hi hc hn
    obtain ⟨iter, rfl⟩ : ∃ j, iter = j + 1 := ⟨iter - 1, by omega⟩
    have hl : (requestMsg E i).length = 33 * (i + 1) := draw_length _ _ _
    rw [requestsFrom, responseLoop, Wp.bind_iff]
    have step := responseStep_wp hp fuel (sl iter) v i pre (requestSeed E i) (requestMsg E i) (requestsFrom E k (i + 1)) rsp hc
      (by omega) (draw_length _ _ _) (by omega) (by omega)
    generalize responseStep fuel (sl iter) v _ rsp = x at step ⊢
    refine (step.monoF (fun hF hall => hF (hall i (Nat.le_refl _) (by omega)))).mono ?_
    rintro r ⟨resp, ok, hrun, hr⟩
    cases ok with
    | false =>
      subst hr
      exact ⟨resp, ⟨resp, false, hrun, rfl, rfl⟩, rfl⟩
    | true =>
      obtain ⟨v', rfl⟩ := hr
      have next := ih (i + 1) iter v' tailText (rsp ++ resp) (by omega) (by omega) (by decide) (by decide)
      dsimp only
      generalize responseLoop fuel sl iter v' _ _ = y at next ⊢
      refine (next.monoF (fun hF hall => hF (fun j h1 h2 => hall j (by omega) (by omega)))).mono ?_
      rintro ⟨ret, o⟩ ⟨out, ho, rfl⟩
      exact ⟨resp ++ out, ⟨resp, true, hrun, out, ho, rfl⟩, List.append_assoc _ _ _⟩

theorem requests_length (E : Cipher) (n : Nat) : n ≤ (requests E n).length := by
  induction n with
  | zero => omega
  | succ n ih =>
    rw [requests_succ, List.length_append]
    have : 0 < (request n (requestSeed E n) (requestMsg E n)).length := by
      unfold request field
      simp only [List.length_append, show (text "count = ").length = 8 from rfl]
      omega
    omega

theorem katMain_wp (hp : p.WF) (aes : Aes) (tmp : Nat → Vector UInt8 48) (tmp0 : Vector UInt8 48) (st : Drbg)
    (entropy : Vector UInt8 48) (msg : Vector UInt8 3300) (v : KatVars) (fuel : Nat) (sl : Nat → KatStale p) (n : Nat)
    (hn : n ≤ 100) : Wp (¬ ∀ i < n, Runs p fuel (requestSeed aes i) (requestMsg aes i)) (katMain aes tmp tmp0 st entropy msg v fuel sl n) (fun r =>
      r.2.1 = requests aes n ∧ ∃ out, Responses p fuel aes n 0 r.1 out ∧ r.2.2 = text "# LESS\n\n" ++ out) := by
  unfold katMain
  rw [Wp.bind_iff]
  have hreq := requestFile_wp aes tmp tmp0 st entropy v.seed msg n hn
  generalize requestFile aes tmp tmp0 st entropy v.seed msg n = file at hreq ⊢
  refine (hreq.monoF False.elim).mono ?_
  rintro ⟨req, seed⟩ h
  dsimp only at h ⊢
  subst h
  have e := requestsFrom_eq aes n 0
  rw [Nat.zero_add] at e
  have e' : requests aes n = [] ++ requestsFrom aes n 0 := by
    rw [← e]; rfl
  have hl := requests_length aes n
  rw [Wp.bind_iff]
  have key := responseLoop_wp hp fuel sl aes n 0 ((requests aes n).length + 1) { v with seed := seed } []
    (ascii "# " ++ ascii "LESS" ++ ascii "\n\n") (by omega) (by omega) (by decide) (by decide)
  rw [← e'] at key
  generalize responseLoop fuel sl _ _ _ _ = y at key ⊢
  refine (key.monoF (fun hF hall => hF (fun j _ h2 => hall j (by omega)))).mono ?_
  rintro ⟨ret, rsp⟩ ⟨out, ho, rfl⟩
  exact ⟨rfl, out, ho, rfl⟩

end LESS.Kat
