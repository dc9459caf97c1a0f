import Verif.Model.Upgrade
/-!
# C46 and C47: Upgrade and URL parameters
-/
set_option autoImplicit false
namespace Neffos

/-! ## C47 -/

/-- C47, spec: the headers that the parameters give for the name `n`, in the order in which the
map is ranged over -/
def paramValues (q : List (Bytes × List Bytes)) (n : Bytes) : List Bytes :=
  (q.filter (fun p => canonicalKey p.1 = urlPrefix ++ n)).flatMap (fun p => p.2)

theorem canonGo_length (u : Bool) (k : Bytes) : (canonGo u k).length = k.length := by
  induction k generalizing u with
  | nil => rfl
  | cons c t ih => simp [canonGo, ih]

theorem canonicalKey_length (k : Bytes) : (canonicalKey k).length = k.length := by
  unfold canonicalKey
  split
  · exact canonGo_length ..
  · rfl

theorem uint8_all {p : UInt8 → Prop} [DecidablePred p]
    (h : ∀ n : Fin 256, p (UInt8.ofNat n.val)) (c : UInt8) : p c := by
  have := h ⟨c.toNat, c.toNat_lt⟩
  rwa [show UInt8.ofNat c.toNat = c from UInt8.ofNat_toNat] at this

theorem canonByte_idem (u : Bool) (c : UInt8) : canonByte u (canonByte u c) = canonByte u c := by
  revert c
  cases u
  · exact uint8_all (p := fun c => canonByte false (canonByte false c) = canonByte false c)
      (by decide +kernel)
  · exact uint8_all (p := fun c => canonByte true (canonByte true c) = canonByte true c)
      (by decide +kernel)

theorem canonByte_valid (u : Bool) (c : UInt8) :
    validHeaderByte (canonByte u c) = validHeaderByte c := by
  revert c
  cases u
  · exact uint8_all (p := fun c => validHeaderByte (canonByte false c) = validHeaderByte c)
      (by decide +kernel)
  · exact uint8_all (p := fun c => validHeaderByte (canonByte true c) = validHeaderByte c)
      (by decide +kernel)

theorem canonGo_idem (u : Bool) (k : Bytes) : canonGo u (canonGo u k) = canonGo u k := by
  induction k generalizing u with
  | nil => rfl
  | cons c t ih =>
    simp only [canonGo, canonByte_idem]
    rw [ih]

theorem canonGo_all (u : Bool) (k : Bytes) :
    (canonGo u k).all validHeaderByte = k.all validHeaderByte := by
  induction k generalizing u with
  | nil => rfl
  | cons c t ih => simp only [canonGo, List.all_cons, canonByte_valid, ih]

/-- the part of a canonical name after a dash is canonical -/
theorem canonGo_dash (u : Bool) (a b : Bytes) :
    canonGo u (a ++ 45 :: b) = canonGo u (a ++ [45]) ++ canonGo true b := by
  induction a generalizing u with
  | nil => cases u <;> rfl
  | cons c t ih =>
    simp only [List.cons_append, canonGo]
    rw [ih]

theorem canonGo_rest (n k : Bytes) (h : canonGo true k = urlPrefix ++ n) : canonGo true n = n := by
  have h1 := canonGo_idem true k
  have hs : urlPrefix = b! "X-Websocket-Header" ++ [45] := by decide +kernel
  have hp : canonGo true (b! "X-Websocket-Header" ++ [45]) = b! "X-Websocket-Header" ++ [45] := by
    decide +kernel
  rw [h, hs, List.append_assoc, List.singleton_append, canonGo_dash, hp, List.append_assoc] at h1
  exact List.append_cancel_left (List.append_cancel_left h1)

theorem canonicalKey_rest (n k : Bytes) (h : canonicalKey k = urlPrefix ++ n) :
    canonicalKey n = n := by
  have hpv : urlPrefix.all validHeaderByte = true := by decide +kernel
  unfold canonicalKey at h
  split at h
  · have hn := canonGo_rest n k h
    unfold canonicalKey
    split
    · exact hn
    · rfl
  · rename_i hv
    unfold canonicalKey
    rw [if_neg]
    rw [h, List.all_append, hpv, Bool.true_and] at hv
    exact hv

theorem foldl_add (h : Header) (k : Bytes) (vs : List Bytes) (n : Bytes) :
    (vs.foldl (fun h v => Header.add h k v) h) n = if n = canonicalKey k then h n ++ vs else h n := by
  induction vs generalizing h with
  | nil => simp
  | cons v vs ih =>
    rw [List.foldl_cons, ih]
    unfold Header.add
    split <;> simp

theorem parseParam_eq (h : Header) (p : Bytes × List Bytes) (n : Bytes) :
    parseParam h p n = if canonicalKey p.1 = urlPrefix ++ n ∧ n ≠ [] then h n ++ p.2 else h n := by
  unfold parseParam
  have hl := canonicalKey_length p.1
  split
  · rename_i hle
    rw [if_neg]
    rintro ⟨e, hn⟩
    rw [e, List.length_append] at hl
    have : 0 < n.length := List.length_pos_iff.mpr hn
    omega
  · rename_i hle
    dsimp only
    split
    · rename_i hpre
      obtain ⟨r, hr⟩ := List.isPrefixOf_iff_prefix.mp hpre
      have hrn := canonicalKey_rest r p.1 hr.symm
      rw [← hr, List.drop_left, foldl_add, hrn]
      by_cases e : n = r
      · subst e
        rw [if_pos rfl, if_pos]
        refine ⟨rfl, ?_⟩
        intro hn
        subst hn
        rw [← hr, List.length_append] at hl
        simp at hl
        omega
      · rw [if_neg e, if_neg]
        rintro ⟨h1, _⟩
        exact e (List.append_cancel_left h1).symm
    · rename_i hpre
      rw [if_neg]
      rintro ⟨h1, _⟩
      apply hpre
      rw [h1]
      exact List.isPrefixOf_iff_prefix.mpr (List.prefix_append _ _)

/-- C47: a header gets, after its own values, exactly the values of the parameters whose
canonical name is the prefix followed by the name of the header, each value in order, for every
order in which the parameters are visited; nothing else changes. -/
theorem c47_values (h : Header) (q : List (Bytes × List Bytes)) (n : Bytes) (hn : n ≠ []) :
    parseParams h q n = h n ++ paramValues q n := by
  unfold parseParams
  induction q generalizing h with
  | nil => simp [paramValues]
  | cons p q ih =>
    rw [List.foldl_cons, ih, parseParam_eq]
    unfold paramValues
    by_cases e : canonicalKey p.1 = urlPrefix ++ n
    · rw [if_pos ⟨e, hn⟩, List.filter_cons_of_pos (by simpa using e)]
      simp
    · rw [if_neg (fun h => e h.1), List.filter_cons_of_neg (by simpa using e)]

/-- C47: a parameter that is the prefix alone adds nothing. -/
theorem c47_empty (h : Header) (q : List (Bytes × List Bytes)) : parseParams h q [] = h [] := by
  unfold parseParams
  induction q generalizing h with
  | nil => rfl
  | cons p q ih => rw [List.foldl_cons, ih, parseParam_eq, if_neg (fun h => h.2 rfl)]

/-- C47: if no two parameters have the same canonical name, the result does not depend on the
order in which the map is ranged over. -/
theorem c47_order (h : Header) (q q' : List (Bytes × List Bytes)) (hp : q.Perm q')
    (hd : q.Pairwise (fun a b => canonicalKey a.1 ≠ canonicalKey b.1)) :
    parseParams h q = parseParams h q' := by
  funext n
  by_cases hn : n = []
  · subst hn; rw [c47_empty, c47_empty]
  · rw [c47_values h q n hn, c47_values h q' n hn]
    congr 1
    unfold paramValues
    have h1 := hp.filter (fun p => canonicalKey p.1 = urlPrefix ++ n)
    have h2 : (q.filter (fun p => canonicalKey p.1 = urlPrefix ++ n)).length ≤ 1 := by
      have hd' := hd.filter (fun p => decide (canonicalKey p.1 = urlPrefix ++ n))
      have hm : ∀ a ∈ q.filter (fun p => decide (canonicalKey p.1 = urlPrefix ++ n)),
          canonicalKey a.1 = urlPrefix ++ n := by
        intro a ha
        simpa using (List.mem_filter.mp ha).2
      generalize q.filter (fun p => decide (canonicalKey p.1 = urlPrefix ++ n)) = l at hd' hm ⊢
      match l with
      | [] => simp
      | [_] => simp
      | a :: b :: l =>
        have := (List.pairwise_cons.mp hd').1 b (by simp)
        exact (this (by rw [hm a (by simp), hm b (by simp)])).elim
    generalize q.filter (fun p => decide (canonicalKey p.1 = urlPrefix ++ n)) = l at h1 h2 ⊢
    generalize q'.filter (fun p => decide (canonicalKey p.1 = urlPrefix ++ n)) = l' at h1 ⊢
    match l with
    | [] => rw [List.nil_perm.mp h1]
    | [a] => rw [List.singleton_perm.mp h1]
    | a :: b :: l => simp at h2

/-- C47: names are compared as HTTP headers are: letters change case only. -/
theorem c47_canonical (k : Bytes) : canonicalKey (canonicalKey k) = canonicalKey k := by
  unfold canonicalKey
  split
  · rename_i h
    rw [if_pos (by rw [canonGo_all]; exact h), canonGo_idem]
  · rfl

example : paramValues [(b! "X-Websocket-Header-x-id", [b! "1", b! "2"]), (b! "x-WebSocket-header-X-ID", [b! "3"]),
    (b! "X-Websocket-Header-", [b! "4"]), (b! "X-Id", [b! "5"])] (b! "X-Id") =
    [b! "1", b! "2", b! "3"] := by decide +kernel
example : List.Pairwise (fun a b : Bytes × List Bytes => canonicalKey a.1 ≠ canonicalKey b.1)
    [(b! "X-Websocket-Header-x-id", [b! "1"]), (b! "X-Websocket-Header-y id", [b! "2"])] := by
  decide +kernel

/-- spec: the characters of a header name, RFC 9110 section 5.6.2 -/
def tokenChars : Bytes :=
  b! "!#$%&'*+-.^_`|~0123456789ABCDEFGHIJKLMNOPQRSTUVWXYZabcdefghijklmnopqrstuvwxyz"

/-- spec: equal but for the case of the letters -/
def SameButCase (a b : Bytes) : Prop :=
  a.map (fun c => if 65 ≤ c ∧ c ≤ 90 then c + 32 else c) = b.map (fun c => if 65 ≤ c ∧ c ≤ 90 then c + 32 else c)

theorem validHeaderByte_iff (c : UInt8) : validHeaderByte c = true ↔ c ∈ tokenChars := by
  revert c
  exact uint8_all (p := fun c => validHeaderByte c = true ↔ c ∈ tokenChars) (by decide +kernel)

theorem canonByte_lower (u : Bool) (c : UInt8) :
    canonByte u (if 65 ≤ c ∧ c ≤ 90 then c + 32 else c) = canonByte u c := by
  revert c
  cases u
  · exact uint8_all (p := fun c => canonByte false (if 65 ≤ c ∧ c ≤ 90 then c + 32 else c) = canonByte false c) (by decide +kernel)
  · exact uint8_all (p := fun c => canonByte true (if 65 ≤ c ∧ c ≤ 90 then c + 32 else c) = canonByte true c) (by decide +kernel)

theorem canonGo_lower (u : Bool) (k : Bytes) :
    canonGo u (k.map (fun c => if 65 ≤ c ∧ c ≤ 90 then c + 32 else c)) = canonGo u k := by
  induction k generalizing u with
  | nil => rfl
  | cons c t ih => rw [List.map_cons, canonGo, canonGo, canonByte_lower, ih]

/-- C47: a name is canonical up to the case of its letters: names of header characters that differ in it only name the same header,
and no others do; a name with any other character stays as it is. -/
theorem c47_names (k k' : Bytes) :
    ((∀ c ∈ k, c ∈ tokenChars) → (∀ c ∈ k', c ∈ tokenChars) → (canonicalKey k = canonicalKey k' ↔ SameButCase k k')) ∧
    ((∃ c ∈ k, c ∉ tokenChars) → canonicalKey k = k) := by
  have lw : ∀ (u : Bool) (c : UInt8), (if 65 ≤ canonByte u c ∧ canonByte u c ≤ 90 then canonByte u c + 32 else canonByte u c) =
      if 65 ≤ c ∧ c ≤ 90 then c + 32 else c := by
    intro u c
    revert c
    cases u
    · exact uint8_all (p := fun c => (if 65 ≤ canonByte false c ∧ canonByte false c ≤ 90 then canonByte false c + 32 else canonByte false c) =
        if 65 ≤ c ∧ c ≤ 90 then c + 32 else c) (by decide +kernel)
    · exact uint8_all (p := fun c => (if 65 ≤ canonByte true c ∧ canonByte true c ≤ 90 then canonByte true c + 32 else canonByte true c) =
        if 65 ≤ c ∧ c ≤ 90 then c + 32 else c) (by decide +kernel)
  have same : ∀ (u : Bool) (x : Bytes), SameButCase (canonGo u x) x := by
    intro u x
    unfold SameButCase
    induction x generalizing u with
    | nil => rfl
    | cons c t ih => rw [canonGo, List.map_cons, List.map_cons, lw, ih]
  constructor
  · intro h h'
    have a : k.all validHeaderByte = true := List.all_eq_true.mpr fun c hc => (validHeaderByte_iff c).mpr (h c hc)
    have a' : k'.all validHeaderByte = true := List.all_eq_true.mpr fun c hc => (validHeaderByte_iff c).mpr (h' c hc)
    unfold canonicalKey
    rw [if_pos a, if_pos a']
    constructor
    · intro e
      have h1 := same true k
      have h2 := same true k'
      rw [e] at h1
      exact h1.symm.trans h2
    · intro e
      rw [← canonGo_lower, ← canonGo_lower true k', e]
  · rintro ⟨c, hc, hn⟩
    unfold canonicalKey
    rw [if_neg]
    intro h
    exact hn ((validHeaderByte_iff c).mp (List.all_eq_true.mp h c hc))

/-- C47: in the canonical form of a name of header characters a letter is in upper case exactly at the start and after a dash. -/
theorem c47_letters (k : Bytes) (hk : ∀ c ∈ k, c ∈ tokenChars) (i : Nat) (c : UInt8) (hc : (canonicalKey k)[i]? = some c) :
    ((i = 0 ∨ k[i - 1]? = some 45) → ¬ (97 ≤ c ∧ c ≤ 122)) ∧ (¬ (i = 0 ∨ k[i - 1]? = some 45) → ¬ (65 ≤ c ∧ c ≤ 90)) := by
  have up : ∀ c : UInt8, ¬ (97 ≤ canonByte true c ∧ canonByte true c ≤ 122) :=
    uint8_all (p := fun c => ¬ (97 ≤ canonByte true c ∧ canonByte true c ≤ 122)) (by decide +kernel)
  have low : ∀ c : UInt8, ¬ (65 ≤ canonByte false c ∧ canonByte false c ≤ 90) :=
    uint8_all (p := fun c => ¬ (65 ≤ canonByte false c ∧ canonByte false c ≤ 90)) (by decide +kernel)
  have dash : ∀ (u : Bool) (c : UInt8), canonByte u c = 45 ↔ c = 45 := by
    intro u c
    revert c
    cases u
    · exact uint8_all (p := fun c => canonByte false c = 45 ↔ c = 45) (by decide +kernel)
    · exact uint8_all (p := fun c => canonByte true c = 45 ↔ c = 45) (by decide +kernel)
  have go : ∀ (k : Bytes) (u : Bool) (i : Nat), (canonGo u k)[i]? = some c →
      (((i = 0 ∧ u = true) ∨ (i ≠ 0 ∧ k[i - 1]? = some 45)) → ¬ (97 ≤ c ∧ c ≤ 122)) ∧
      (¬ ((i = 0 ∧ u = true) ∨ (i ≠ 0 ∧ k[i - 1]? = some 45)) → ¬ (65 ≤ c ∧ c ≤ 90)) := by
    intro k
    induction k with
    | nil => intro u i h; simp [canonGo] at h
    | cons d t ih =>
      intro u i h
      rw [canonGo] at h
      cases i with
      | zero =>
        simp only [List.getElem?_cons_zero, Option.some.injEq] at h
        subst h
        cases u
        · exact ⟨fun h => by simp at h, fun _ => low d⟩
        · exact ⟨fun _ => up d, fun h => by simp at h⟩
      | succ i =>
        rw [List.getElem?_cons_succ] at h
        have := ih _ i h
        simp only [decide_eq_true_eq, dash] at this
        cases i with
        | zero => simpa using this
        | succ i => simpa using this
  have a : k.all validHeaderByte = true := List.all_eq_true.mpr fun c hc => (validHeaderByte_iff c).mpr (hk c hc)
  unfold canonicalKey at hc
  rw [if_pos a] at hc
  have := go k true i hc
  cases i with
  | zero => simpa using this
  | succ i => simpa using this

example : SameButCase (b! "X-Websocket-Header-x-id") (b! "x-WEBSOCKET-header-X-iD") ∧
    canonicalKey (b! "x-WEBSOCKET-header-X-iD") = b! "X-Websocket-Header-X-Id" ∧
    canonicalKey (b! "x-websocket-header-a b") = b! "x-websocket-header-a b" := by
  refine ⟨by unfold SameButCase; decide +kernel, by decide +kernel, by decide +kernel⟩

/-! ## C46 -/

/-- the request reaches the upgrader and the upgrader accepts it -/
def UpEnv.accepted (e : UpEnv) : Prop :=
  e.closed = false ∧ e.method = b! "GET" ∧ e.upgrader = none

/-- C46: a closed server answers every request with an internal server error. -/
theorem c46_closed (e : UpEnv) (h : e.closed = true) :
    (upgrade e).2 = .inr errServerClosed ∧ UpEff.status 500 ∈ (upgrade e).1 ∧
    UpEff.upgrader ∉ (upgrade e).1 := by
  simp [upgrade, h]

/-- C46: an open server answers HEAD with status found. -/
theorem c46_head (e : UpEnv) (h : e.closed = false) (hm : e.method = b! "HEAD") :
    upgrade e = ([.status 302], .inr errUpgradeOnRetry) := by
  simp [upgrade, h, hm]

/-- C46: an open server answers other methods than HEAD and GET with method not allowed, naming
the allowed one. -/
theorem c46_method (e : UpEnv) (h : e.closed = false) (h1 : e.method ≠ b! "HEAD")
    (h2 : e.method ≠ b! "GET") :
    (upgrade e).2 = .inr errInvalidMethod ∧ UpEff.status 405 ∈ (upgrade e).1 ∧
    UpEff.header (b! "Allow") (b! "GET") ∈ (upgrade e).1 ∧ UpEff.upgrader ∉ (upgrade e).1 := by
  simp only [upgrade, h, Bool.false_eq_true, if_false, if_neg h1, if_pos h2]
  simp

/-- C46: for GET on an open server the parameters are parsed before the upgrader runs, and its
error is returned, given to OnUpgradeError once if that is set. -/
theorem c46_upgrader (e : UpEnv) (h : e.closed = false) (hm : e.method = b! "GET") (err : GoErr)
    (hu : e.upgrader = some err) :
    upgrade e = ([.params, .upgrader] ++
      (if e.hasOnUpgradeError = true then [.onUpgradeError err] else []), .inr err) := by
  simp [upgrade, h, hm, hu]

/-- C46: Upgrade of an accepted request, in the order of its effects. -/
theorem c46_conn (e : UpEnv) (h : e.accepted) :
    ∃ tail, (upgrade e).1 = [.params, .upgrader] ++
        (if e.hasWrapper = true then [.wrapSocket] else []) ++
        [.newConn (match e.customID with | some id => id | none => e.serverID)] ++
        (if e.exchange = none ∧ e.syncBroadcaster = false then [.waitBroadcasts] else []) ++
        [.register, .startReader] ++
        (if e.exchange = none then [] else [.exchangeOnConnect]) ++ tail ∧
      ((∃ err, e.exchange = some (some err) ∧ tail = [.ready (some err)] ∧
          (upgrade e).2 = .inr err) ∨
       ((e.exchange = none ∨ e.exchange = some none) ∧
         ((∃ err, e.onConnect = some (some err) ∧ tail = [.onConnect, .ready (some err)] ∧
            (upgrade e).2 = .inr err) ∨
          (e.onConnect = some none ∧ tail = [.onConnect, .ready none] ∧
            (upgrade e).2 = .inl (match e.customID with | some id => id | none => e.serverID)) ∨
          (e.onConnect = none ∧ tail = [.ready none] ∧
            (upgrade e).2 = .inl (match e.customID with | some id => id | none => e.serverID))))) := by
  obtain ⟨closed, method, upgrader, hu, wrapper, custom, serverID, sync, exchange, onConnect⟩ := e
  obtain ⟨h1, h2, h3⟩ := h
  dsimp only at h1 h2 h3 ⊢
  subst h1 h2 h3
  rcases exchange with _ | _ | err <;> rcases onConnect with _ | _ | err' <;>
    cases wrapper <;> cases sync <;> cases custom <;>
    simp [upgrade, upgradeConn, upgradeEnd]

/-- C46: a connection is created exactly for accepted requests, exactly one, with the ID of the
custom generator if it is given, else of the server's. -/
theorem c46_created (e : UpEnv) (id : Bytes) :
    UpEff.newConn id ∈ (upgrade e).1 ↔
      e.accepted ∧ id = (match e.customID with | some i => i | none => e.serverID) := by
  constructor
  · intro h
    have ha : e.accepted := by
      unfold UpEnv.accepted
      unfold upgrade at h
      split at h
      · simp at h
      · split at h
        · simp at h
        · split at h
          · simp at h
          · rename_i h1 h2 h3
            split at h
            · split at h <;> simp at h
            · rename_i hu
              exact ⟨by simpa using h1, by simpa using h3, hu⟩
    refine ⟨ha, ?_⟩
    obtain ⟨tail, h1, h2⟩ := c46_conn e ha
    rw [h1] at h
    have ht : UpEff.newConn id ∉ tail := by
      rcases h2 with ⟨_, _, rfl, _⟩ | ⟨_, ⟨_, _, rfl, _⟩ | ⟨_, rfl, _⟩ | ⟨_, rfl, _⟩⟩ <;> simp
    simp only [List.mem_append, List.mem_cons, List.not_mem_nil, or_false, false_or, reduceCtorEq,
      UpEff.newConn.injEq] at h
    rcases h with (((h | h) | h) | h) | h
    · split at h <;> simp at h
    · exact h
    · split at h <;> simp at h
    · split at h <;> simp at h
    · exact (ht h).elim
  · rintro ⟨ha, rfl⟩
    obtain ⟨tail, h1, _⟩ := c46_conn e ha
    rw [h1]
    simp

/-- C46: Upgrade returns a connection exactly for accepted requests that neither the exchange
nor OnConnect refuse. -/
theorem c46_returned (e : UpEnv) (id : Bytes) :
    (upgrade e).2 = .inl id ↔ e.accepted ∧
      id = (match e.customID with | some i => i | none => e.serverID) ∧
      (∀ err, e.exchange ≠ some (some err)) ∧ (∀ err, e.onConnect ≠ some (some err)) := by
  constructor
  · intro h
    have ha : e.accepted := by
      unfold UpEnv.accepted
      unfold upgrade at h
      split at h
      · simp at h
      · split at h
        · simp at h
        · split at h
          · simp at h
          · rename_i h1 h2 h3
            split at h
            · simp at h
            · rename_i hu
              exact ⟨by simpa using h1, by simpa using h3, hu⟩
    refine ⟨ha, ?_⟩
    obtain ⟨tail, _, h2⟩ := c46_conn e ha
    rw [h] at h2
    rcases h2 with ⟨_, _, _, h3⟩ | ⟨h4, ⟨_, _, _, h3⟩ | ⟨h5, _, h3⟩ | ⟨h5, _, h3⟩⟩
    · simp at h3
    · simp at h3
    · refine ⟨by simpa using h3, ?_, ?_⟩
      · rcases h4 with h4 | h4 <;> simp [h4]
      · simp [h5]
    · refine ⟨by simpa using h3, ?_, ?_⟩
      · rcases h4 with h4 | h4 <;> simp [h4]
      · simp [h5]
  · rintro ⟨ha, rfl, h3, h4⟩
    obtain ⟨tail, _, h2⟩ := c46_conn e ha
    rcases h2 with ⟨err, h5, _⟩ | ⟨_, ⟨err, h5, _⟩ | ⟨_, _, h5⟩ | ⟨_, _, h5⟩⟩
    · exact (h3 err h5).elim
    · exact (h4 err h5).elim
    · exact h5
    · exact h5

/-- C46: IsTryingToReconnect recognises exactly the error for HEAD, provided no user function
returns that very error. -/
theorem c46_reconnect (e : UpEnv) (h1 : e.upgrader ≠ some errUpgradeOnRetry)
    (h2 : e.exchange ≠ some (some errUpgradeOnRetry))
    (h3 : e.onConnect ≠ some (some errUpgradeOnRetry)) :
    (∃ err, (upgrade e).2 = .inr err ∧ isTryingToReconnect (some err) = true) ↔
      e.closed = false ∧ e.method = b! "HEAD" := by
  constructor
  · rintro ⟨err, h, hr⟩
    have he : err = errUpgradeOnRetry := by simpa [isTryingToReconnect] using hr
    subst he
    cases hc : e.closed with
    | true => rw [(c46_closed e hc).1] at h; simp [errServerClosed, errUpgradeOnRetry] at h
    | false =>
      refine ⟨rfl, ?_⟩
      by_cases hh : e.method = b! "HEAD"
      · exact hh
      · by_cases hg : e.method = b! "GET"
        · cases hu : e.upgrader with
          | some err =>
            rw [c46_upgrader e hc hg err hu] at h
            simp only [Sum.inr.injEq] at h
            rw [hu, h] at h1
            exact (h1 rfl).elim
          | none =>
            obtain ⟨tail, _, h4⟩ := c46_conn e ⟨hc, hg, hu⟩
            rw [h] at h4
            rcases h4 with ⟨err, h5, _, h6⟩ | ⟨_, ⟨err, h5, _, h6⟩ | ⟨_, _, h6⟩ | ⟨_, _, h6⟩⟩
            · simp only [Sum.inr.injEq] at h6
              rw [← h6] at h5; exact (h2 h5).elim
            · simp only [Sum.inr.injEq] at h6
              rw [← h6] at h5; exact (h3 h5).elim
            · simp at h6
            · simp at h6
        · rw [(c46_method e hc hh hg).1] at h
          simp [errInvalidMethod, errUpgradeOnRetry] at h
  · rintro ⟨hc, hm⟩
    exact ⟨errUpgradeOnRetry, by rw [c46_head e hc hm], by simp [isTryingToReconnect]⟩

/-- an accepted request with a custom ID -/
def upExample : UpEnv :=
  { closed := false, method := b! "GET", upgrader := none, hasOnUpgradeError := true,
    hasWrapper := true, customID := some (b! "id"), serverID := b! "other",
    syncBroadcaster := false, exchange := none, onConnect := some none }

example : upExample.accepted := ⟨rfl, rfl, rfl⟩
example : upgrade upExample = ([.params, .upgrader, .wrapSocket, .newConn (b! "id"),
    .waitBroadcasts, .register, .startReader, .onConnect, .ready none], .inl (b! "id")) := rfl
example : upgrade { upExample with upgrader := some errWrite } =
    ([.params, .upgrader, .onUpgradeError errWrite], .inr errWrite) := rfl
example : (upgrade { upExample with method := b! "POST" }).2 = .inr errInvalidMethod := rfl
example : (upgrade { upExample with closed := true }).2 = .inr errServerClosed := rfl

end Neffos
