import Verif.Lemmas.DecodeState
import Verif.Lemmas.Mlsag
import Verif.Props.Decode
/-!
# C87: what a decoder leaves in its receiver and what it allocates, also when it fails
-/

set_option linter.unusedSectionVars false

namespace Dusk

theorem items_length_total {α : Type} {f : Bytes → α} : ∀ k b, (items (fun x => some (f x)) k b).length = min k (b.length / 32)
  | 0, b => by simp [items]
  | k + 1, b => by
    unfold items
    split
    · have := items_length_total (f := f) k (b.drop 32)
      simp only [List.length_drop] at this
      simp only [List.length_cons, this]
      omega
    · simp
      omega

section
variable {F G : Type} [Field F] [AddCommGroup G] [Module F G]

/-- The scalar of a block; every block has one. -/
def scalarOf (R : Ristretto F G) (b : Bytes) : Option F := some (R.sOfBytes b)

/-- The point of a block, if it encodes one. -/
def pointOf (R : Ristretto F G) (b : Bytes) : Option G := if (R.pOfBytes b).2 then some (R.pOfBytes b).1 else none

end

namespace Mlsag

variable {F G : Type} [Field F] [AddCommGroup G] [Module F G]

theorem scalar_elem (R : Ristretto F G) : Elem (readScalar R) (scalarOf R) where
  good r x h hx := by
    obtain ⟨r', h1, h2, h3⟩ := readN_of_le h
    refine ⟨r', ?_, h2, h3⟩
    simp only [scalarOf, Option.some.injEq] at hx
    simp [readScalar, Rd.bind, h1, Res.bind, Rd.pure, hx]
  refused r h hx := by simp [scalarOf] at hx
  short r h := by simp [readScalar, Rd.bind, readN_of_gt h, Res.bind, Res.IsErr]

theorem point_elem (R : Ristretto F G) : Elem (readPoint R) (pointOf R) where
  good r x h hx := by
    obtain ⟨r', h1, h2, h3⟩ := readN_of_le h
    refine ⟨r', ?_, h2, h3⟩
    unfold pointOf at hx
    split at hx
    · rename_i hp
      simp only [Option.some.injEq] at hx
      simp [readPoint, Rd.bind, h1, Res.bind, Rd.pure, hx, hp]
    · cases hx
  refused r h hx := by
    obtain ⟨r', h1, h2, h3⟩ := readN_of_le h
    unfold pointOf at hx
    split at hx
    · cases hx
    · rename_i hp
      simp [readPoint, Rd.bind, h1, Res.bind, Rd.fail, hp, Res.IsErr]
  short r h := by simp [readPoint, Rd.bind, readN_of_gt h, Res.bind, Res.IsErr]

theorem scalars_length (R : Ristretto F G) (k : Nat) (b : Bytes) : (items (scalarOf R) k b).length = min k (b.length / 32) :=
  items_length_total k b

/-- The first count of an encoded signature. -/
def membersOf (b : Bytes) : Nat := beNat ((b.drop 32).take 4)

/-- The second count of an encoded signature. -/
def perMemberOf (b : Bytes) : Nat := beNat ((b.drop 36).take 4)

/-- What `Signature.Decode` leaves, in terms of the bytes of the stream. -/
structure DecodeSpec (R : Ristretto F G) (keys : Bool) (s : Signature F G) (b : Bytes) (o : Outcome (Signature F G) Unit) : Prop where
  challenge : o.recv.c = if 32 ≤ b.length then R.sOfBytes (b.take 32) else s.c
  responses : o.recv.r = if 40 ≤ b.length then
      rows (membersOf b) (perMemberOf b) (items (scalarOf R) (perMemberOf b * membersOf b) (b.drop 40))
    else s.r
  pubKeys : o.recv.pubKeys = if keys ∧ 40 ≤ b.length ∧ 40 + 32 * (perMemberOf b * membersOf b) ≤ b.length then
      (rows (membersOf b) (perMemberOf b) (items (pointOf R) (perMemberOf b * membersOf b)
        (b.drop (40 + 32 * (perMemberOf b * membersOf b))))).map fun k => { keys := k }
    else s.pubKeys
  msg : o.recv.msg = s.msg
  noPanic : o.res.IsErr ∨ ∃ r', o.res = .ok ((), r')
  accepted : (∃ r', o.res = .ok ((), r')) ↔
    40 ≤ b.length ∧ 40 + 32 * (perMemberOf b * membersOf b) ≤ b.length ∧
      (keys = true → (items (pointOf R) (perMemberOf b * membersOf b)
        (b.drop (40 + 32 * (perMemberOf b * membersOf b)))).length = perMemberOf b * membersOf b)
  made : o.made = if 40 ≤ b.length then
      membersOf b + if keys ∧ 40 + 32 * (perMemberOf b * membersOf b) ≤ b.length then membersOf b else 0
    else 0

theorem Res_not_both {α : Type} {x : Res α} (h : x.IsErr) : ¬ ∃ a, x = .ok a := by
  rintro ⟨a, rfl⟩
  simp [Res.IsErr] at h

/-- The loop over the responses of `Signature.Decode`. -/
def respLoop (R : Ristretto F G) (n m : Nat) : Dec (Signature F G) Unit :=
  Dec.loop (fun i => Dec.on (fun s : Signature F G => s.r.getD i []) (fun x s => { s with r := s.r.set i x }) (responsesDec R n)) 0 m

/-- The loop over the keys of `Signature.Decode`. -/
def keyLoop (R : Ristretto F G) (n m : Nat) : Dec (Signature F G) Unit :=
  Dec.loop (fun i => Dec.on (fun s : Signature F G => s.pubKeys.getD i {}) (fun x s => { s with pubKeys := s.pubKeys.set i x })
    (PubKeys.dec R n)) 0 m

theorem respLoop_spec (R : Ristretto F G) (n m : Nat) (s : Signature F G) (r : Reader) :
    let o := respLoop R n m { s with r := List.replicate m [] } r
    o.made = 0 ∧ o.recv = { s with r := rows m n (items (scalarOf R) (n * m) r.flat) } ∧
      Done ((items (scalarOf R) (n * m) r.flat).length = n * m) (32 * (n * m)) r o.res := by
  have h := Dec.matrix_spec (scalar_elem R) (wrap := id) (snoc := fun x res => res ++ [x]) (fun _ _ => rfl)
    (get := fun s : Signature F G => s.r) (put := fun l s => { s with r := l }) (fun _ _ => rfl) (fun _ _ _ => rfl) n m 0 [] s r rfl
  simp only [List.nil_append, id_eq, List.map_id_fun] at h
  exact h

theorem keyLoop_spec (R : Ristretto F G) (n m : Nat) (s : Signature F G) (r : Reader) :
    let o := keyLoop R n m { s with pubKeys := List.replicate m {} } r
    o.made = 0 ∧ o.recv = { s with pubKeys := (rows m n (items (pointOf R) (n * m) r.flat)).map fun k => { keys := k } } ∧
      Done ((items (pointOf R) (n * m) r.flat).length = n * m) (32 * (n * m)) r o.res := by
  have h := Dec.matrix_spec (point_elem R) (wrap := fun k => ({ keys := k } : PubKeys G))
    (snoc := fun x p => p.addPubKey x) (fun _ _ => rfl)
    (get := fun s : Signature F G => s.pubKeys) (put := fun l s => { s with pubKeys := l }) (fun _ _ => rfl) (fun _ _ _ => rfl)
    n m 0 [] s r rfl
  simp only [List.nil_append] at h
  exact h

theorem Signature.dec_eq (R : Ristretto F G) (decodeKeys : Bool) : Signature.dec R decodeKeys =
    Dec.bind (Dec.read (readScalar R)) fun c =>
    Dec.bind (Dec.set fun s => { s with c := c }) fun _ =>
    Dec.bind (Dec.read readU32) fun lenR =>
    Dec.bind (Dec.read readU32) fun numResponses =>
    Dec.bind (Dec.make lenR fun s => { s with r := List.replicate lenR [] }) fun _ =>
    Dec.bind (respLoop R numResponses lenR) fun _ =>
    if !decodeKeys then Dec.pure ()
    else
      Dec.bind (Dec.make lenR fun s => { s with pubKeys := List.replicate lenR {} }) fun _ =>
      keyLoop R numResponses lenR := rfl

/-- C87: the receiver after `Signature.Decode`, whether it succeeds or not, when it succeeds, and how much it allocates. -/
theorem C87_mlsag (R : Ristretto F G) (keys : Bool) (s : Signature F G) (r : Reader) :
    DecodeSpec R keys s r.flat (Signature.dec R keys s r) := by
  rw [Signature.dec_eq]
  by_cases h32 : 32 ≤ r.flat.length
  swap
  · have hrd : readScalar R r = .err "EOF" := by simp [readScalar, Rd.bind, readN_of_gt (show r.flat.length < 32 by omega), Res.bind]
    simp only [Dec.bind, Dec.read, hrd]
    have h40 : ¬ 40 ≤ r.flat.length := by omega
    refine ⟨by simp [h32], by simp [h40], by simp [h40], rfl, Or.inl (by simp [Res.IsErr]), ?_, by simp [h40]⟩
    constructor
    · rintro ⟨_, h⟩
      cases h
    · rintro ⟨h, -⟩
      exact absurd h h40
  obtain ⟨r1, e1, f1, g1⟩ := (scalar_elem R).good r _ h32 rfl
  by_cases h36 : 36 ≤ r.flat.length
  swap
  · have hrd : readU32 r1 = .err "EOF" := by
      simp [readU32, Rd.bind, readN_of_gt (show r1.flat.length < 4 by rw [f1, List.length_drop]; omega), Res.bind]
    simp only [Dec.bind, Dec.read, Dec.set, e1, hrd]
    have h40 : ¬ 40 ≤ r.flat.length := by omega
    refine ⟨by simp [h32], by simp [h40], by simp [h40], rfl, Or.inl (by simp [Res.IsErr]), ?_, by simp [h40]⟩
    constructor
    · rintro ⟨_, h⟩
      cases h
    · rintro ⟨h, -⟩
      exact absurd h h40
  obtain ⟨r2, e2, f2, g2⟩ := readN_of_le (n := 4) (r := r1) (by rw [f1, List.length_drop]; omega)
  have e2' : readU32 r1 = .ok (membersOf r.flat, r2) := by
    simp [readU32, Rd.bind, e2, Res.bind, Rd.pure, membersOf, f1]
  have f2' : r2.flat = r.flat.drop 36 := by rw [f2, f1, List.drop_drop]
  by_cases h40 : 40 ≤ r.flat.length
  swap
  · have hrd : readU32 r2 = .err "EOF" := by
      simp [readU32, Rd.bind, readN_of_gt (show r2.flat.length < 4 by rw [f2', List.length_drop]; omega), Res.bind]
    simp only [Dec.bind, Dec.read, Dec.set, e1, e2', hrd]
    refine ⟨by simp [h32], by simp [h40], by simp [h40], rfl, Or.inl (by simp [Res.IsErr]), ?_, by simp [h40]⟩
    constructor
    · rintro ⟨_, h⟩
      cases h
    · rintro ⟨h, -⟩
      exact absurd h h40
  obtain ⟨r3, e3, f3, g3⟩ := readN_of_le (n := 4) (r := r2) (by rw [f2', List.length_drop]; omega)
  have e3' : readU32 r2 = .ok (perMemberOf r.flat, r3) := by
    simp [readU32, Rd.bind, e3, Res.bind, Rd.pure, perMemberOf, f2']
  have f3' : r3.flat = r.flat.drop 40 := by rw [f3, f2', List.drop_drop]
  generalize hm : membersOf r.flat = m at *
  generalize hn : perMemberOf r.flat = n at *
  obtain ⟨p, q, t⟩ := respLoop_spec R n m { s with c := R.sOfBytes (r.flat.take 32) } r3
  simp only [f3'] at p q t
  have hlen := scalars_length R (n * m) (r.flat.drop 40)
  rw [List.length_drop] at hlen
  simp only [Dec.bind, Dec.read, Dec.set, Dec.make, e1, e2', e3']
  by_cases hfull : 40 + 32 * (n * m) ≤ r.flat.length
  swap
  · obtain ⟨e, he⟩ := (t.2 (by rw [hlen]; omega)).exists
    simp only [he, p, q]
    refine ⟨by simp [h32], by simp [h40, hm, hn], by simp [hfull, hm, hn], rfl, Or.inl (by simp [Res.IsErr]), ?_, by simp [h40, hfull, hm, hn]⟩
    constructor
    · rintro ⟨_, h⟩
      cases h
    · rintro ⟨-, h, -⟩
      rw [hm, hn] at h
      exact absurd h hfull
  obtain ⟨r4, e4, f4, g4⟩ := t.1 (by rw [hlen]; omega)
  rw [f3', List.drop_drop] at f4
  simp only [e4, p, q]
  cases keys
  · simp only [Bool.not_false, if_true, Dec.pure]
    refine ⟨by simp [h32], by simp [h40, hm, hn], by simp, rfl, Or.inr ⟨_, rfl⟩, ?_, by simp [h40, hm]⟩
    simp [h40, hfull, hm, hn]
  · simp only [Bool.not_true, Bool.false_eq_true, if_false]
    obtain ⟨p', q', t'⟩ := keyLoop_spec R n m
      { s with c := R.sOfBytes (r.flat.take 32), r := rows m n (items (scalarOf R) (n * m) (r.flat.drop 40)) } r4
    simp only [f4] at p' q' t'
    simp only [Dec.bind, Dec.make, p', q']
    refine ⟨by simp [h32], by simp [h40, hm, hn], by simp [h40, hfull, hm, hn], rfl, ?_, ?_, by simp [h40, hfull, hm, hn]⟩
    · by_cases hk : (items (pointOf R) (n * m) (r.flat.drop (40 + 32 * (n * m)))).length = n * m
      · obtain ⟨r', h1, -⟩ := t'.1 hk
        exact Or.inr ⟨r', h1⟩
      · exact Or.inl (t'.2 hk)
    · rw [hm, hn]
      constructor
      · rintro ⟨r', h⟩
        refine ⟨h40, hfull, fun _ => ?_⟩
        by_contra hk
        exact Res_not_both (t'.2 hk) ⟨_, h⟩
      · rintro ⟨-, -, h⟩
        obtain ⟨r', h1, -⟩ := t'.1 (h rfl)
        exact ⟨r', h1⟩

/-- C87: result, error and stream of `Signature.Decode` are those of `Model/Mlsag`, and on success the receiver is the
decoded signature. -/
theorem C87_mlsag_model (R : Ristretto F G) (keys : Bool) (s : Signature F G) (r : Reader) :
    Dec.Sim (Signature.dec R keys s r) (s.decode R keys r) id := by
  rw [Signature.dec_eq]
  unfold Signature.decode
  simp only [Rd.bind, Dec.bind, Dec.read, Dec.set, Dec.make]
  cases h1 : readScalar R r with
  | err e => simp [Dec.Sim, Res.bind]
  | panic => simp [Dec.Sim, Res.bind]
  | ok p1 =>
  simp only [Res.bind]
  cases h2 : readU32 p1.2 with
  | err e => simp [Dec.Sim]
  | panic => simp [Dec.Sim]
  | ok p2 =>
  simp only
  cases h3 : readU32 p2.2 with
  | err e => simp [Dec.Sim]
  | panic => simp [Dec.Sim]
  | ok p3 =>
  simp only
  have hrow : ∀ r, Dec.Sim (responsesDec R p3.1 [] r) (decodeResponses R [] p3.1 r) id := by
    intro r
    have h := Dec.row_sim (elem := readScalar R) (wrap := id) (snoc := fun x res => res ++ [x]) (fun _ _ => rfl) p3.1 0 [] r
    unfold decodeResponses responsesDec Rd.bind
    generalize readTimes (readScalar R) p3.1 r = d at h ⊢
    cases d <;> simpa [Dec.Sim, Res.bind, Rd.pure] using h
  have hm := Dec.matrix_sim [] hrow (get := fun s : Signature F G => s.r) (put := fun l s => { s with r := l })
    (fun _ _ => rfl) (fun _ _ _ => rfl) p2.1 0 [] { s with c := p1.1 } p3.2 rfl
  simp only [List.nil_append] at hm
  change Dec.Sim (respLoop R p3.1 p2.1 _ _) _ _ at hm
  cases h4 : readTimes (decodeResponses R [] p3.1) p2.1 p3.2 with
  | err e =>
    rw [h4] at hm
    simp only [Dec.Sim] at hm
    simp [Dec.Sim, hm]
  | panic =>
    rw [h4] at hm
    simp only [Dec.Sim] at hm
    simp [Dec.Sim, hm]
  | ok p4 =>
  rw [h4] at hm
  simp only [Dec.Sim] at hm
  obtain ⟨m1, m2⟩ := hm
  simp only [m1, m2]
  cases keys
  · simp [Dec.Sim, Rd.pure, Dec.pure]
  · simp only [Bool.not_true, Bool.false_eq_true, if_false]
    have hrow : ∀ r, Dec.Sim (PubKeys.dec R p3.1 {} r) (PubKeys.decode R {} p3.1 r) id := by
      intro r
      have h := Dec.row_sim (elem := readPoint R) (wrap := fun k => ({ keys := k } : PubKeys G)) (snoc := fun x p => p.addPubKey x)
        (fun _ _ => rfl) p3.1 0 [] r
      unfold PubKeys.decode PubKeys.dec Rd.bind
      generalize readTimes (readPoint R) p3.1 r = d at h ⊢
      cases d <;> simpa [Dec.Sim, Res.bind, Rd.pure] using h
    have hm := Dec.matrix_sim {} hrow (get := fun s : Signature F G => s.pubKeys) (put := fun l s => { s with pubKeys := l })
      (fun _ _ => rfl) (fun _ _ _ => rfl) p2.1 0 [] { s with c := p1.1, r := p4.1 } p4.2 rfl
    simp only [List.nil_append] at hm
    change Dec.Sim (keyLoop R p3.1 p2.1 _ _) _ _ at hm
    simp only [Dec.bind, Dec.make, Rd.bind]
    generalize readTimes (PubKeys.decode R {} p3.1) p2.1 p4.2 = d at hm ⊢
    cases d <;> simpa [Dec.Sim, Rd.pure] using hm

/-- The stream of a challenge and two counts. -/
def header (c : Bytes) (m n : Nat) : Bytes := c ++ (be32 m ++ be32 n)

theorem header_spec {c : Bytes} (hc : c.length = 32) {m n : Nat} (hm : m < 2 ^ 32) (hn : n < 2 ^ 32) :
    (header c m n).length = 40 ∧ (header c m n).take 32 = c ∧ membersOf (header c m n) = m ∧ perMemberOf (header c m n) = n := by
  have h1 : (header c m n).drop 32 = be32 m ++ be32 n := List.drop_left' hc
  refine ⟨by simp [header, hc, be32_length], List.take_left' hc, ?_, ?_⟩
  · unfold membersOf
    rw [h1, List.take_left' (be32_length m), beNat_be32_of_lt hm]
  · unfold perMemberOf
    rw [show 36 = 32 + 4 from rfl, ← List.drop_drop, h1, List.drop_left' (be32_length m),
      List.take_of_length_le (by rw [be32_length]), beNat_be32_of_lt hn]

/-- C87 (violated): 40 bytes are enough to make `Signature.Decode` allocate, and return without an error, any number of members
a `uint32` can count; the members have no responses. -/
theorem C87_mlsag_alloc_violated (R : Ristretto F G) (keys : Bool) (s : Signature F G) (c : Bytes) (hc : c.length = 32) (N : Nat)
    (hN : N < 2 ^ 32) (r : Reader) (hr : r.flat = header c N 0) :
    let o := Signature.dec R keys s r
    (∃ r', o.res = .ok ((), r')) ∧ o.recv.r = List.replicate N [] ∧ N ≤ o.made := by
  obtain ⟨h1, h2, h3, h4⟩ := header_spec hc hN (n := 0) (by norm_num)
  have h := C87_mlsag R keys s r
  rw [hr] at h
  refine ⟨h.accepted.2 ?_, ?_, ?_⟩
  · rw [h1, h3, h4]
    simp [items]
  · rw [h.responses, h1, h3, h4]
    simp only [le_refl, if_true, Nat.zero_mul, items]
    exact rows_nil N 0
  · rw [h.made, h1, h3, h4]
    simp

/-- C87 (violated): the allocation is made before the first response is read: a call that fails because nothing follows the
counts has allocated as well. -/
theorem C87_mlsag_alloc_failed_violated (R : Ristretto F G) (keys : Bool) (s : Signature F G) (c : Bytes) (hc : c.length = 32) (N n : Nat)
    (hN : N < 2 ^ 32) (hN0 : N ≠ 0) (hn : n < 2 ^ 32) (hn0 : n ≠ 0) (r : Reader) (hr : r.flat = header c N n) :
    let o := Signature.dec R keys s r
    o.res.IsErr ∧ o.recv.r = List.replicate N [] ∧ o.recv.pubKeys = s.pubKeys ∧ o.made = N := by
  obtain ⟨h1, h2, h3, h4⟩ := header_spec hc hN hn
  have h := C87_mlsag R keys s r
  rw [hr] at h
  have hpos : 0 < n * N := Nat.mul_pos (Nat.pos_of_ne_zero hn0) (Nat.pos_of_ne_zero hN0)
  have hd : (header c N n).drop 40 = [] := List.drop_of_length_le (by omega)
  refine ⟨?_, ?_, ?_, ?_⟩
  · rcases h.noPanic with h' | h'
    · exact h'
    · have := h.accepted.1 h'
      rw [h1, h3, h4] at this
      omega
  · rw [h.responses, h1, h3, h4, hd]
    simp only [le_refl, if_true]
    have : items (scalarOf R) (n * N) [] = [] := by
      cases n * N <;> simp [items]
    rw [this]
    exact rows_nil N n
  · rw [h.pubKeys, h1, h3, h4, if_neg]
    omega
  · rw [h.made, h1, h3, h4, if_pos (le_refl _), if_neg (by omega)]
    rfl

/-- C87: when members have responses, an accepted stream is at least 16 times as long as what is allocated. -/
theorem C87_mlsag_bound (R : Ristretto F G) (keys : Bool) (s : Signature F G) (r : Reader)
    (hok : ∃ r', (Signature.dec R keys s r).res = .ok ((), r')) (hn : perMemberOf r.flat ≠ 0) :
    16 * (Signature.dec R keys s r).made ≤ r.flat.length := by
  have h := C87_mlsag R keys s r
  obtain ⟨h1, h2, -⟩ := h.accepted.1 hok
  have h3 : membersOf r.flat ≤ perMemberOf r.flat * membersOf r.flat := Nat.le_mul_of_pos_left _ (Nat.pos_of_ne_zero hn)
  rw [h.made, if_pos h1]
  split <;> omega

/-- C87 (violated): a failed `Decode` may leave a mixture: on a stream of 32 to 39 bytes it fails, and the receiver has the new
challenge and everything else as before. -/
theorem C87_mlsag_mixture_violated (R : Ristretto F G) (keys : Bool) (s : Signature F G) (r : Reader) (h1 : 32 ≤ r.flat.length)
    (h2 : r.flat.length < 40) :
    let o := Signature.dec R keys s r
    o.res.IsErr ∧ o.recv = { s with c := R.sOfBytes (r.flat.take 32) } ∧ o.made = 0 := by
  have h := C87_mlsag R keys s r
  refine ⟨?_, ?_, ?_⟩
  · rcases h.noPanic with h' | h'
    · exact h'
    · have := (h.accepted.1 h').1
      omega
  · have e1 := h.challenge
    have e2 := h.responses
    have e3 := h.pubKeys
    have e4 := h.msg
    rw [if_pos h1] at e1
    rw [if_neg (by omega)] at e2
    rw [if_neg (by omega)] at e3
    generalize (Signature.dec R keys s r).recv = q at *
    cases q
    simp_all
  · rw [h.made, if_neg (by omega)]

/-- The hypotheses of the theorems above can be met: a stream announcing the largest number of members. -/
example (s : Signature Toy.K Toy.K) :
    let o := Signature.dec Toy.ris true s (Reader.ofBytes (header (List.replicate 32 0) (2 ^ 32 - 1) 0))
    (∃ r', o.res = .ok ((), r')) ∧ o.recv.r.length = 4294967295 := by
  obtain ⟨h1, h2, -⟩ := C87_mlsag_alloc_violated Toy.ris true s (List.replicate 32 0) (by simp) (2 ^ 32 - 1) (by norm_num)
    (Reader.ofBytes (header (List.replicate 32 0) (2 ^ 32 - 1) 0)) (by simp [Reader.ofBytes, Reader.flat])
  exact ⟨h1, by rw [h2, List.length_replicate]; norm_num⟩

end Mlsag

namespace RP

variable {F G : Type} [Field F] [AddCommGroup G] [Module F G]

/-- Block `i` is read: the blocks before it are there, and those of them that have to encode points do. -/
def reach (R : Ristretto F G) (b : Bytes) (i : Nat) : Prop :=
  32 * i ≤ b.length ∧ ∀ j < i, j < 4 → (R.pOfBytes (blocks b j)).2 = true

open Classical in
/-- What is in a point field that is read from block `i`. -/
noncomputable def leftPoint (R : Ristretto F G) (bad : G → Bytes → G) (b : Bytes) (i : Nat) (old : G) : G :=
  if reach R b i ∧ 32 * (i + 1) ≤ b.length then
    if (R.pOfBytes (blocks b i)).2 then (R.pOfBytes (blocks b i)).1 else bad old (blocks b i)
  else old

open Classical in
/-- What is in a scalar field that is read from block `i`. -/
noncomputable def leftScalar (R : Ristretto F G) (b : Bytes) (i : Nat) (old : F) : F :=
  if reach R b i ∧ 32 * (i + 1) ≤ b.length then R.sOfBytes (blocks b i) else old

/-- When an inner product proof is accepted. -/
def ipOk (b : Bytes) (fin : StreamEnd) : Prop := 64 ≤ b.length ∧ fin = .eof ∧ b.length % 32 = 0

/-- The number of rounds of a proof of that length; the code computes it with 32 bits. -/
def ipRounds (b : Bytes) : Nat := (b.length - 64) / 64 % 2 ^ 32

instance (b : Bytes) (fin : StreamEnd) : Decidable (ipOk b fin) := by unfold ipOk; infer_instance

/-- What is in an inner product proof after `Decode`. -/
def leftIP (R : Ristretto F G) (b : Bytes) (fin : StreamEnd) (old : IP.Proof F G) : IP.Proof F G :=
  if ipOk b fin then
    ⟨(List.range (ipRounds b)).map fun i => (R.pOfBytes (blocks b (2 * i + 2))).1,
      (List.range (ipRounds b)).map fun i => (R.pOfBytes (blocks b (2 * i + 3))).1,
      R.sOfBytes (blocks b 0), R.sOfBytes (blocks b 1)⟩
  else if 64 ≤ b.length then { old with A := R.sOfBytes (blocks b 0), B := R.sOfBytes (blocks b 1) }
  else old

/-- C87: the receiver after `Proof.Decode` of an inner product proof, when it succeeds, and what it allocates. -/
theorem C87_innerproduct (R : Ristretto F G) (p : IP.Proof F G) (r : Reader) :
    let o := ipDec R p r
    o.recv = leftIP R r.flat r.fin p ∧ o.made = (if ipOk r.flat r.fin then 2 * ipRounds r.flat else 0) ∧
      (ipOk r.flat r.fin → o.res = .ok ((), ⟨[], .eof⟩)) ∧ (¬ ipOk r.flat r.fin → o.res.IsErr) := by
  dsimp only
  unfold ipDec
  by_cases h32 : 32 ≤ r.flat.length
  swap
  · have hno : ¬ ipOk r.flat r.fin := fun h => h32 (by have := h.1; omega)
    have h64 : ¬ 64 ≤ r.flat.length := by omega
    simp only [Dec.bind, Dec.read, readN_of_gt (show r.flat.length < 32 by omega)]
    simp [leftIP, hno, h64, Res.IsErr]
  obtain ⟨r1, e1, f1, g1⟩ := readN_of_le h32
  by_cases h64 : 64 ≤ r.flat.length
  swap
  · have hno : ¬ ipOk r.flat r.fin := fun h => h64 h.1
    simp only [Dec.bind, Dec.read, e1, readN_of_gt (show r1.flat.length < 32 by rw [f1, List.length_drop]; omega)]
    simp [leftIP, hno, h64, Res.IsErr]
  obtain ⟨r2, e2, f2, g2⟩ := readN_of_le (n := 32) (r := r1) (by rw [f1, List.length_drop]; omega)
  have hb0 : r.flat.take 32 = blocks r.flat 0 := by simp [blocks]
  have hb1 : r1.flat.take 32 = blocks r.flat 1 := by simp [blocks, f1]
  have f2' : r2.flat = r.flat.drop 64 := by rw [f2, f1, List.drop_drop]
  have g2' : r2.fin = r.fin := g2.trans g1
  rw [hb0] at e1
  rw [hb1] at e2
  by_cases hf : r.fin = .eof
  swap
  · have hno : ¬ ipOk r.flat r.fin := fun h => hf h.2.1
    have hfin : r.fin = .fault := by cases h : r.fin <;> simp_all
    have hra : readAll r2 = .err "read error" := by unfold readAll; rw [g2', hfin]
    simp only [Dec.bind, Dec.read, Dec.set, e1, e2, hra]
    simp [leftIP, hno, h64, Res.IsErr]
  have hra : readAll r2 = .ok (r.flat.drop 64, ⟨[], .eof⟩) := by unfold readAll; rw [g2', hf, f2']
  simp only [Dec.bind, Dec.read, Dec.set, e1, e2, hra]
  by_cases hm : r.flat.length % 32 = 0
  swap
  · have hno : ¬ ipOk r.flat r.fin := fun h => hm h.2.2
    rw [if_pos (by rw [List.length_drop]; omega)]
    simp [leftIP, hno, h64, Res.IsErr, Dec.fail]
  have hyes : ipOk r.flat r.fin := ⟨h64, hf, hm⟩
  rw [if_neg (by rw [List.length_drop]; omega)]
  have hrounds : (r.flat.drop 64).length / 64 % 2 ^ 32 = ipRounds r.flat := by rw [List.length_drop]; rfl
  have hle : 64 * ipRounds r.flat ≤ (r.flat.drop 64).length := by
    rw [← hrounds]
    have := Nat.mod_le ((r.flat.drop 64).length / 64) (2 ^ 32)
    omega
  have hblk : ∀ i, blocks (r.flat.drop 64) i = blocks r.flat (i + 2) := by
    intro i
    unfold blocks
    rw [List.drop_drop]
    congr 2
    omega
  classical
  simp only [hrounds, Dec.bind, Dec.read, Dec.set, Dec.make, Rd.lift, decodeLoop_ok R _ _ hle, Res.bind, hblk]
  simp [leftIP, hyes]

theorem pointDec_spec (R : Ristretto F G) (bad : G → Bytes → G) (old : G) (r : Reader) :
    let o := pointDec R bad old r
    o.made = 0 ∧
    o.recv = (if 32 ≤ r.flat.length then
      if (R.pOfBytes (r.flat.take 32)).2 then (R.pOfBytes (r.flat.take 32)).1 else bad old (r.flat.take 32) else old) ∧
    Done (32 ≤ r.flat.length ∧ (R.pOfBytes (r.flat.take 32)).2 = true) 32 r o.res := by
  dsimp only
  unfold pointDec
  by_cases h32 : 32 ≤ r.flat.length
  swap
  · simp only [Dec.bind, Dec.read, readN_of_gt (show r.flat.length < 32 by omega)]
    refine ⟨trivial, by simp [h32], fun h => absurd h.1 h32, fun _ => by simp [Res.IsErr]⟩
  obtain ⟨r1, e1, f1, g1⟩ := readN_of_le h32
  simp only [Dec.bind, Dec.read, e1]
  by_cases hp : (R.pOfBytes (r.flat.take 32)).2 = true
  · simp only [hp, if_true, Dec.set, h32]
    exact ⟨trivial, trivial, fun _ => ⟨r1, rfl, f1, g1⟩, fun h => absurd ⟨trivial, trivial⟩ h⟩
  · simp only [hp, Bool.false_eq_true, if_false, Dec.set, h32, if_true, Dec.fail, Dec.bind]
    exact ⟨trivial, trivial, fun h => absurd h.2 (by simp), fun _ => by simp [Res.IsErr]⟩

theorem scalarDec_spec (R : Ristretto F G) (old : F) (r : Reader) :
    let o := scalarDec R old r
    o.made = 0 ∧ o.recv = (if 32 ≤ r.flat.length then R.sOfBytes (r.flat.take 32) else old) ∧
    Done (32 ≤ r.flat.length) 32 r o.res := by
  dsimp only
  unfold scalarDec readerToScalar
  by_cases h32 : 32 ≤ r.flat.length
  swap
  · simp only [Dec.bind, Dec.read, Rd.bind, readN_of_gt (show r.flat.length < 32 by omega), Res.bind]
    refine ⟨trivial, by simp [h32], fun h => absurd h h32, fun _ => by simp [Res.IsErr]⟩
  obtain ⟨r1, e1, f1, g1⟩ := readN_of_le h32
  simp only [Dec.bind, Dec.read, Rd.bind, e1, Res.bind, Rd.pure, Dec.set, h32, if_true]
  exact ⟨trivial, trivial, fun _ => ⟨r1, rfl, f1, g1⟩, fun h => absurd trivial h⟩

/-- The fields of a range proof after `Decode`, apart from the commitments; `b` are the bytes after the commitments. -/
structure OuterSpec (R : Ristretto F G) (bad : G → Bytes → G) (p : Proof F G) (b : Bytes) (fin : StreamEnd)
    (o : Outcome (Proof F G) Unit) : Prop where
  V : o.recv.V = p.V
  A : o.recv.A = leftPoint R bad b 0 p.A
  S : o.recv.S = leftPoint R bad b 1 p.S
  T1 : o.recv.T1 = leftPoint R bad b 2 p.T1
  T2 : o.recv.T2 = leftPoint R bad b 3 p.T2
  taux : o.recv.taux = leftScalar R b 4 p.taux
  mu : o.recv.mu = leftScalar R b 5 p.mu
  t : o.recv.t = leftScalar R b 6 p.t
  ipOld : ¬ reach R b 7 → o.recv.ip = p.ip
  ipNew : reach R b 7 → o.recv.ip = some (leftIP R (b.drop 224) fin ⟨[], [], 0, 0⟩)
  made : (¬ reach R b 7 ∨ ¬ ipOk (b.drop 224) fin → o.made = 0) ∧
    (reach R b 7 ∧ ipOk (b.drop 224) fin → o.made = 2 * ipRounds (b.drop 224))
  good : reach R b 7 → ipOk (b.drop 224) fin → o.res = .ok ((), ⟨[], .eof⟩)
  failed : (¬ reach R b 7 ∨ ¬ ipOk (b.drop 224) fin) → o.res.IsErr

theorem reach_anti {R : Ristretto F G} {b : Bytes} {i j : Nat} (h : i ≤ j) (hr : reach R b j) : reach R b i :=
  ⟨by have := hr.1; omega, fun k hk => hr.2 k (by omega)⟩

theorem leftPoint_of_not {R : Ristretto F G} {bad : G → Bytes → G} {b : Bytes} {i : Nat} {old : G} (h : ¬ reach R b i) :
    leftPoint R bad b i old = old := if_neg fun h' => h h'.1

theorem leftScalar_of_not {R : Ristretto F G} {b : Bytes} {i : Nat} {old : F} (h : ¬ reach R b i) :
    leftScalar R b i old = old := if_neg fun h' => h h'.1

theorem point_step {σ : Type} (R : Ristretto F G) (bad : G → Bytes → G) (get : σ → G) (put : G → σ → σ) (K : Dec σ Unit) {b : Bytes}
    {i : Nat} (hi : i < 4) {r : Reader} (hb : r.flat = b.drop (32 * i)) (hr : reach R b i) (s : σ) :
    let o := Dec.bind (Dec.on get put (pointDec R bad)) (fun _ => K) s r
    (reach R b (i + 1) → ∃ r', r'.flat = b.drop (32 * (i + 1)) ∧ r'.fin = r.fin ∧
      o = K (put (leftPoint R bad b i (get s)) s) r') ∧
    (¬ reach R b (i + 1) → o.res.IsErr ∧ o.recv = put (leftPoint R bad b i (get s)) s ∧ o.made = 0) := by
  obtain ⟨h1, h2, h3⟩ := pointDec_spec R bad (get s) r
  have hlen : r.flat.length = b.length - 32 * i := by rw [hb, List.length_drop]
  have hblk : r.flat.take 32 = blocks b i := by rw [hb]; rfl
  have hiff : (32 ≤ r.flat.length ∧ (R.pOfBytes (r.flat.take 32)).2 = true) ↔ reach R b (i + 1) := by
    rw [hlen, hblk]
    constructor
    · rintro ⟨h, h'⟩
      refine ⟨by omega, fun j hj hj4 => ?_⟩
      rcases Nat.lt_succ_iff_lt_or_eq.1 hj with h | rfl
      · exact hr.2 j h hj4
      · exact h'
    · rintro ⟨h, h'⟩
      exact ⟨by omega, h' i (by omega) hi⟩
  have hrecv : (pointDec R bad (get s) r).recv = leftPoint R bad b i (get s) := by
    rw [h2, hblk, hlen]
    unfold leftPoint
    by_cases hl : 32 * (i + 1) ≤ b.length
    · rw [if_pos (show 32 ≤ b.length - 32 * i by omega), if_pos (show reach R b i ∧ 32 * (i + 1) ≤ b.length from ⟨hr, hl⟩)]
    · rw [if_neg (by have := hr.1; omega), if_neg fun h => hl h.2]
  constructor
  · intro h
    obtain ⟨r', e1, e2, e3⟩ := h3.1 (hiff.2 h)
    refine ⟨r', ?_, e3, ?_⟩
    · rw [e2, hb, List.drop_drop]
      congr 1
    · simp [Dec.bind, Dec.on, e1, hrecv, h1]
  · intro h
    obtain ⟨e, he⟩ := (h3.2 fun h' => h (hiff.1 h')).exists
    simp [Dec.bind, Dec.on, he, hrecv, h1, Res.IsErr]

theorem scalar_step {σ : Type} (R : Ristretto F G) (get : σ → F) (put : F → σ → σ) (K : Dec σ Unit) {b : Bytes}
    {i : Nat} (hi : 4 ≤ i) {r : Reader} (hb : r.flat = b.drop (32 * i)) (hr : reach R b i) (s : σ) :
    let o := Dec.bind (Dec.on get put (scalarDec R)) (fun _ => K) s r
    (reach R b (i + 1) → ∃ r', r'.flat = b.drop (32 * (i + 1)) ∧ r'.fin = r.fin ∧
      o = K (put (leftScalar R b i (get s)) s) r') ∧
    (¬ reach R b (i + 1) → o.res.IsErr ∧ o.recv = put (leftScalar R b i (get s)) s ∧ o.made = 0) := by
  obtain ⟨h1, h2, h3⟩ := scalarDec_spec R (get s) r
  have hlen : r.flat.length = b.length - 32 * i := by rw [hb, List.length_drop]
  have hblk : r.flat.take 32 = blocks b i := by rw [hb]; rfl
  have hiff : 32 ≤ r.flat.length ↔ reach R b (i + 1) := by
    rw [hlen]
    constructor
    · intro h
      exact ⟨by omega, fun j hj hj4 => hr.2 j (by omega) hj4⟩
    · rintro ⟨h, -⟩
      omega
  have hrecv : (scalarDec R (get s) r).recv = leftScalar R b i (get s) := by
    rw [h2, hblk, hlen]
    unfold leftScalar
    by_cases hl : 32 * (i + 1) ≤ b.length
    · rw [if_pos (show 32 ≤ b.length - 32 * i by omega), if_pos (show reach R b i ∧ 32 * (i + 1) ≤ b.length from ⟨hr, hl⟩)]
    · rw [if_neg (by have := hr.1; omega), if_neg fun h => hl h.2]
  constructor
  · intro h
    obtain ⟨r', e1, e2, e3⟩ := h3.1 (hiff.2 h)
    refine ⟨r', ?_, e3, ?_⟩
    · rw [e2, hb, List.drop_drop]
      congr 1
    · simp [Dec.bind, Dec.on, e1, hrecv, h1]
  · intro h
    obtain ⟨e, he⟩ := (h3.2 fun h' => h (hiff.1 h')).exists
    simp [Dec.bind, Dec.on, he, hrecv, h1, Res.IsErr]

/-- `Proof.Decode` from the inner product proof on. -/
def tail7 (R : Ristretto F G) : Dec (Proof F G) Unit :=
  Dec.on (fun _ => (⟨[], [], 0, 0⟩ : IP.Proof F G)) (fun x p => { p with ip := some x }) (ipDec R)

/-- `Proof.Decode` from the field `t` on. -/
def tail6 (R : Ristretto F G) : Dec (Proof F G) Unit :=
  Dec.bind (Dec.on Proof.t (fun x p => { p with t := x }) (scalarDec R)) fun _ => tail7 R

/-- `Proof.Decode` from the field `mu` on. -/
def tail5 (R : Ristretto F G) : Dec (Proof F G) Unit :=
  Dec.bind (Dec.on Proof.mu (fun x p => { p with mu := x }) (scalarDec R)) fun _ => tail6 R

/-- `Proof.Decode` from the field `taux` on. -/
def tail4 (R : Ristretto F G) : Dec (Proof F G) Unit :=
  Dec.bind (Dec.on Proof.taux (fun x p => { p with taux := x }) (scalarDec R)) fun _ => tail5 R

/-- `Proof.Decode` from the field `T2` on. -/
def tail3 (R : Ristretto F G) (bad : G → Bytes → G) : Dec (Proof F G) Unit :=
  Dec.bind (Dec.on Proof.T2 (fun x p => { p with T2 := x }) (pointDec R bad)) fun _ => tail4 R

/-- `Proof.Decode` from the field `T1` on. -/
def tail2 (R : Ristretto F G) (bad : G → Bytes → G) : Dec (Proof F G) Unit :=
  Dec.bind (Dec.on Proof.T1 (fun x p => { p with T1 := x }) (pointDec R bad)) fun _ => tail3 R bad

/-- `Proof.Decode` from the field `S` on. -/
def tail1 (R : Ristretto F G) (bad : G → Bytes → G) : Dec (Proof F G) Unit :=
  Dec.bind (Dec.on Proof.S (fun x p => { p with S := x }) (pointDec R bad)) fun _ => tail2 R bad

/-- `Proof.Decode` from the field `A` on. -/
def tail0 (R : Ristretto F G) (bad : G → Bytes → G) : Dec (Proof F G) Unit :=
  Dec.bind (Dec.on Proof.A (fun x p => { p with A := x }) (pointDec R bad)) fun _ => tail1 R bad

theorem tail_spec (R : Ristretto F G) (bad : G → Bytes → G) (p : Proof F G) (r : Reader) :
    OuterSpec R bad p r.flat r.fin (tail0 R bad p r) := by
  have hr0 : reach R r.flat 0 := ⟨by omega, fun j hj => by omega⟩
  have hb0 : r.flat = r.flat.drop (32 * 0) := by simp
  have hf0 : r.fin = r.fin := rfl
  rw [tail0]
  obtain ⟨yes, no⟩ := point_step R bad Proof.A (fun x p => { p with A := x }) (tail1 R bad) (b := r.flat) (i := 0) (by omega) hb0 hr0 p
  by_cases hr1 : reach R r.flat 1
  swap
  · obtain ⟨n1, n2, n3⟩ := no hr1
    have hn : ∀ j, 1 ≤ j → ¬ reach R r.flat j := fun j hj h => hr1 (reach_anti hj h)
    constructor <;> simp [n1, n2, n3, hn, leftPoint_of_not, leftScalar_of_not]
  obtain ⟨r1, hb1, g, e⟩ := yes hr1
  have hf1 : r1.fin = r.fin := g.trans hf0
  clear no yes g
  rw [e]
  clear e
  rw [tail1]
  obtain ⟨yes, no⟩ := point_step R bad Proof.S (fun x p => { p with S := x }) (tail2 R bad) (b := r.flat) (i := 1) (by omega) hb1 hr1 ({ p with A := leftPoint R bad r.flat 0 p.A } : Proof F G)
  by_cases hr2 : reach R r.flat 2
  swap
  · obtain ⟨n1, n2, n3⟩ := no hr2
    have hn : ∀ j, 2 ≤ j → ¬ reach R r.flat j := fun j hj h => hr2 (reach_anti hj h)
    constructor <;> simp [n1, n2, n3, hn, leftPoint_of_not, leftScalar_of_not]
  obtain ⟨r2, hb2, g, e⟩ := yes hr2
  have hf2 : r2.fin = r.fin := g.trans hf1
  clear no yes g
  rw [e]
  clear e
  rw [tail2]
  obtain ⟨yes, no⟩ := point_step R bad Proof.T1 (fun x p => { p with T1 := x }) (tail3 R bad) (b := r.flat) (i := 2) (by omega) hb2 hr2 ({ p with A := leftPoint R bad r.flat 0 p.A, S := leftPoint R bad r.flat 1 p.S } : Proof F G)
  by_cases hr3 : reach R r.flat 3
  swap
  · obtain ⟨n1, n2, n3⟩ := no hr3
    have hn : ∀ j, 3 ≤ j → ¬ reach R r.flat j := fun j hj h => hr3 (reach_anti hj h)
    constructor <;> simp [n1, n2, n3, hn, leftPoint_of_not, leftScalar_of_not]
  obtain ⟨r3, hb3, g, e⟩ := yes hr3
  have hf3 : r3.fin = r.fin := g.trans hf2
  clear no yes g
  rw [e]
  clear e
  rw [tail3]
  obtain ⟨yes, no⟩ := point_step R bad Proof.T2 (fun x p => { p with T2 := x }) (tail4 R) (b := r.flat) (i := 3) (by omega) hb3 hr3 ({ p with A := leftPoint R bad r.flat 0 p.A, S := leftPoint R bad r.flat 1 p.S, T1 := leftPoint R bad r.flat 2 p.T1 } : Proof F G)
  by_cases hr4 : reach R r.flat 4
  swap
  · obtain ⟨n1, n2, n3⟩ := no hr4
    have hn : ∀ j, 4 ≤ j → ¬ reach R r.flat j := fun j hj h => hr4 (reach_anti hj h)
    constructor <;> simp [n1, n2, n3, hn, leftPoint_of_not, leftScalar_of_not]
  obtain ⟨r4, hb4, g, e⟩ := yes hr4
  have hf4 : r4.fin = r.fin := g.trans hf3
  clear no yes g
  rw [e]
  clear e
  rw [tail4]
  obtain ⟨yes, no⟩ := scalar_step R Proof.taux (fun x p => { p with taux := x }) (tail5 R) (b := r.flat) (i := 4) (by omega) hb4 hr4 ({ p with A := leftPoint R bad r.flat 0 p.A, S := leftPoint R bad r.flat 1 p.S, T1 := leftPoint R bad r.flat 2 p.T1, T2 := leftPoint R bad r.flat 3 p.T2 } : Proof F G)
  by_cases hr5 : reach R r.flat 5
  swap
  · obtain ⟨n1, n2, n3⟩ := no hr5
    have hn : ∀ j, 5 ≤ j → ¬ reach R r.flat j := fun j hj h => hr5 (reach_anti hj h)
    constructor <;> simp [n1, n2, n3, hn, leftPoint_of_not, leftScalar_of_not]
  obtain ⟨r5, hb5, g, e⟩ := yes hr5
  have hf5 : r5.fin = r.fin := g.trans hf4
  clear no yes g
  rw [e]
  clear e
  rw [tail5]
  obtain ⟨yes, no⟩ := scalar_step R Proof.mu (fun x p => { p with mu := x }) (tail6 R) (b := r.flat) (i := 5) (by omega) hb5 hr5 ({ p with A := leftPoint R bad r.flat 0 p.A, S := leftPoint R bad r.flat 1 p.S, T1 := leftPoint R bad r.flat 2 p.T1, T2 := leftPoint R bad r.flat 3 p.T2, taux := leftScalar R r.flat 4 p.taux } : Proof F G)
  by_cases hr6 : reach R r.flat 6
  swap
  · obtain ⟨n1, n2, n3⟩ := no hr6
    have hn : ∀ j, 6 ≤ j → ¬ reach R r.flat j := fun j hj h => hr6 (reach_anti hj h)
    constructor <;> simp [n1, n2, n3, hn, leftPoint_of_not, leftScalar_of_not]
  obtain ⟨r6, hb6, g, e⟩ := yes hr6
  have hf6 : r6.fin = r.fin := g.trans hf5
  clear no yes g
  rw [e]
  clear e
  rw [tail6]
  obtain ⟨yes, no⟩ := scalar_step R Proof.t (fun x p => { p with t := x }) (tail7 R) (b := r.flat) (i := 6) (by omega) hb6 hr6 ({ p with A := leftPoint R bad r.flat 0 p.A, S := leftPoint R bad r.flat 1 p.S, T1 := leftPoint R bad r.flat 2 p.T1, T2 := leftPoint R bad r.flat 3 p.T2, taux := leftScalar R r.flat 4 p.taux, mu := leftScalar R r.flat 5 p.mu } : Proof F G)
  by_cases hr7 : reach R r.flat 7
  swap
  · obtain ⟨n1, n2, n3⟩ := no hr7
    have hn : ∀ j, 7 ≤ j → ¬ reach R r.flat j := fun j hj h => hr7 (reach_anti hj h)
    constructor <;> simp [n1, n2, n3, hn, leftPoint_of_not, leftScalar_of_not]
  obtain ⟨r7, hb7, g, e⟩ := yes hr7
  have hf7 : r7.fin = r.fin := g.trans hf6
  clear no yes g
  rw [e]
  clear e
  obtain ⟨c1, c2, c3, c4⟩ := C87_innerproduct R (⟨[], [], 0, 0⟩ : IP.Proof F G) r7
  rw [show r7.flat = r.flat.drop 224 from hb7, hf7] at c1 c2 c3 c4
  constructor
  all_goals simp only [tail7, Dec.on, hr7, c1, c2]
  · simp
  · simp
  · exact ⟨fun h => if_neg (by simpa using h), fun h => if_pos h.2⟩
  · exact fun _ => c3
  · exact fun h => c4 (by simpa using h)

/-- The point of a commitment block. -/
def commitmentOf (R : Ristretto F G) (b : Bytes) : Option (Commitment F G) := (pointOf R b).map fun P => ⟨P, 0⟩

theorem commitment_elem (R : Ristretto F G) : Elem (Commitment.decode R) (commitmentOf R) where
  good r x h hx := by
    obtain ⟨r', h1, h2, h3⟩ := readN_of_le h
    refine ⟨r', ?_, h2, h3⟩
    unfold commitmentOf pointOf at hx
    split at hx
    · rename_i hp
      simp only [Option.map_some, Option.some.injEq] at hx
      simp [Commitment.decode, Rd.bind, h1, Res.bind, Rd.pure, ← hx, hp]
    · cases hx
  refused r h hx := by
    obtain ⟨r', h1, h2, h3⟩ := readN_of_le h
    unfold commitmentOf pointOf at hx
    split at hx
    · cases hx
    · rename_i hp
      simp [Commitment.decode, Rd.bind, h1, Res.bind, Rd.fail, hp, Res.IsErr]
  short r h := by simp [Commitment.decode, Rd.bind, readN_of_gt h, Res.bind, Res.IsErr]

/-- The number of commitments announced. -/
def countOf (b : Bytes) : Nat := beNat (b.take 4)

/-- The announced commitments are there and encode points. -/
def commitsOk (R : Ristretto F G) (b : Bytes) : Prop :=
  4 ≤ b.length ∧ (items (commitmentOf R) (countOf b) (b.drop 4)).length = countOf b

/-- C87: the receiver after `Proof.Decode` of a range proof with commitments. If not all the announced commitments can be read,
the receiver is unchanged, but as many elements have been allocated as were announced. -/
theorem C87_rangeproof (R : Ristretto F G) (bad : G → Bytes → G) (p : Proof F G) (r : Reader) :
    let o := Proof.dec R bad true p r
    (¬ commitsOk R r.flat → o.res.IsErr ∧ o.recv = p ∧ o.made = if 4 ≤ r.flat.length then countOf r.flat else 0) ∧
    (commitsOk R r.flat → ∃ o', OuterSpec R bad { p with V := items (commitmentOf R) (countOf r.flat) (r.flat.drop 4) }
      (r.flat.drop (4 + 32 * countOf r.flat)) r.fin o' ∧ o = { o' with made := countOf r.flat + o'.made }) := by
  have hdec : Proof.dec R bad true = Dec.bind (Dec.bind (commitmentsDec R) fun V => Dec.set fun p => { p with V := V })
      fun _ => tail0 R bad := rfl
  rw [hdec]
  unfold commitmentsDec
  dsimp only
  by_cases h4 : 4 ≤ r.flat.length
  swap
  · have hu : readU32 r = .err "EOF" := by
      simp [readU32, Rd.bind, readN_of_gt (show r.flat.length < 4 by omega), Res.bind]
    refine ⟨fun _ => ?_, fun h => absurd h.1 h4⟩
    simp [Dec.bind, Dec.read, hu, Res.IsErr, h4]
  obtain ⟨r1, e1, f1, g1⟩ := readN_of_le h4
  have hu : readU32 r = .ok (countOf r.flat, r1) := by
    simp [readU32, Rd.bind, e1, Res.bind, Rd.pure, countOf]
  obtain ⟨yes, no⟩ := Dec.readTimes_items (commitment_elem R) (countOf r.flat) r1
  rw [f1] at yes no
  constructor
  · intro h
    obtain ⟨e, he⟩ := (no fun h' => h ⟨h4, h'⟩).exists
    simp [Dec.bind, Dec.read, Dec.make, hu, he, Res.IsErr, h4]
  · intro h
    obtain ⟨r2, e2, f2, g2⟩ := yes h.2
    rw [List.drop_drop] at f2
    refine ⟨tail0 R bad { p with V := items (commitmentOf R) (countOf r.flat) (r.flat.drop 4) } r2, ?_, ?_⟩
    · have := tail_spec R bad { p with V := items (commitmentOf R) (countOf r.flat) (r.flat.drop 4) } r2
      rwa [f2, g2, g1] at this
    · simp [Dec.bind, Dec.read, Dec.make, Dec.set, hu, e2]

/-- C87: the receiver after `Proof.Decode` of a range proof without commitments. -/
theorem C87_rangeproof_bare (R : Ristretto F G) (bad : G → Bytes → G) (p : Proof F G) (r : Reader) :
    OuterSpec R bad p r.flat r.fin (Proof.dec R bad false p r) := by
  have hdec : Proof.dec R bad false = Dec.bind (Dec.pure ()) fun _ => tail0 R bad := rfl
  have h : Proof.dec R bad false p r = tail0 R bad p r := by
    rw [hdec]
    simp [Dec.bind, Dec.pure]
  rw [h]
  exact tail_spec R bad p r

/-- C87 (violated): four bytes are enough to make `Proof.Decode` with commitments allocate any number of commitments a `uint32`
can count, before it fails. -/
theorem C87_rangeproof_alloc_violated (R : Ristretto F G) (bad : G → Bytes → G) (p : Proof F G) (N : Nat) (h0 : N ≠ 0) (hN : N < 2 ^ 32)
    (r : Reader) (hr : r.flat = be32 N) :
    let o := Proof.dec R bad true p r
    o.res.IsErr ∧ o.recv = p ∧ o.made = N := by
  have hc : countOf (be32 N) = N := by
    unfold countOf
    rw [List.take_of_length_le (by rw [be32_length]), beNat_be32_of_lt hN]
  obtain ⟨h, -⟩ := C87_rangeproof R bad p r
  rw [hr, hc, be32_length] at h
  refine h fun h' => ?_
  have := h'.2
  rw [hc, List.drop_of_length_le (by rw [be32_length])] at this
  have hi : items (commitmentOf R) N [] = [] := by cases N <;> simp [items]
  rw [hi] at this
  exact h0 this.symm

theorem pointDec_sim (R : Ristretto F G) (bad : G → Bytes → G) (old : G) (r : Reader) :
    Dec.Sim (pointDec R bad old r) (readerToPoint R r) id := by
  unfold pointDec readerToPoint Rd.bind
  simp only [Dec.bind, Dec.read]
  cases readN 32 r with
  | err e => simp [Dec.Sim, Res.bind]
  | panic => simp [Dec.Sim, Res.bind]
  | ok q =>
    simp only [Res.bind]
    by_cases h : (R.pOfBytes q.1).2 = true
    · simp [Dec.Sim, h, Dec.set, Rd.pure]
    · simp [Dec.Sim, h, Dec.set, Rd.fail, Dec.bind, Dec.fail]

theorem scalarDec_sim (R : Ristretto F G) (old : F) (r : Reader) : Dec.Sim (scalarDec R old r) (readerToScalar R r) id := by
  unfold scalarDec
  simp only [Dec.bind, Dec.read]
  cases readerToScalar R r with
  | err e => simp [Dec.Sim]
  | panic => simp [Dec.Sim]
  | ok q => simp [Dec.Sim, Dec.set]

theorem ipDec_sim (R : Ristretto F G) (old : IP.Proof F G) (r : Reader) : Dec.Sim (ipDec R old r) (IP.Proof.decode R r) id := by
  unfold ipDec IP.Proof.decode
  simp only [Dec.bind, Dec.read, Rd.bind, Dec.set]
  cases readN 32 r with
  | err e => simp [Dec.Sim, Res.bind]
  | panic => simp [Dec.Sim, Res.bind]
  | ok q =>
  simp only [Res.bind]
  cases readN 32 q.2 with
  | err e => simp [Dec.Sim]
  | panic => simp [Dec.Sim]
  | ok q2 =>
  simp only
  cases readAll q2.2 with
  | err e => simp [Dec.Sim]
  | panic => simp [Dec.Sim]
  | ok q3 =>
  simp only
  by_cases h : q3.1.length % 32 ≠ 0
  · simp [h, Dec.Sim, Dec.fail, Rd.fail]
  · simp only [if_neg h, Dec.bind, Dec.make, Dec.read, Dec.set, Rd.bind]
    cases Rd.lift (IP.decodeLoop R (q3.1.length / 64 % 2 ^ 32) q3.1) q3.2 with
    | err e => simp [Dec.Sim, Res.bind]
    | panic => simp [Dec.Sim, Res.bind]
    | ok q4 => simp [Dec.Sim, Res.bind, Rd.pure]

theorem on_step {σ τ : Type} {get : σ → τ} {put : τ → σ → σ} {m : Dec τ Unit} {d : Rd τ} (h : ∀ x r, Dec.Sim (m x r) (d r) id)
    {K : Dec σ Unit} {k : τ → Rd σ} {s : σ} (hk : ∀ x r, Dec.Sim (K (put x s) r) (k x r) id) (r : Reader) :
    Dec.Sim (Dec.bind (Dec.on get put m) (fun _ => K) s r) (Rd.bind d k r) id := by
  have h1 := h (get s) r
  unfold Rd.bind
  cases hd : d r with
  | err e =>
    rw [hd] at h1
    exact Dec.bind_err' (h1 : (m (get s) r).res = _)
  | panic =>
    rw [hd] at h1
    exact Dec.bind_panic (h1 : (m (get s) r).res = _)
  | ok q =>
    rw [hd] at h1
    have h2 := hk q.1 q.2
    obtain ⟨e1, e2⟩ : (m (get s) r).res = .ok ((), q.2) ∧ (m (get s) r).recv = q.1 := h1
    have h3 : Dec.bind (Dec.on get put m) (fun _ => K) s r =
        ⟨(K (put q.1 s) q.2).res, (K (put q.1 s) q.2).recv, (m (get s) r).made + (K (put q.1 s) q.2).made⟩ := by
      simp [Dec.bind, Dec.on, e1, e2]
    rw [h3]
    exact h2

theorem tail_sim (R : Ristretto F G) (bad : G → Bytes → G) (p : Proof F G) (r : Reader) :
    Dec.Sim (tail0 R bad p r) ((Rd.bind (readerToPoint R) fun A =>
      Rd.bind (readerToPoint R) fun S =>
      Rd.bind (readerToPoint R) fun T1 =>
      Rd.bind (readerToPoint R) fun T2 =>
      Rd.bind (readerToScalar R) fun taux =>
      Rd.bind (readerToScalar R) fun mu =>
      Rd.bind (readerToScalar R) fun t =>
      Rd.bind (IP.Proof.decode R) fun ip =>
      Rd.pure (⟨p.V, A, S, T1, T2, taux, mu, t, some ip⟩ : Proof F G)) r) id := by
  refine on_step (pointDec_sim R bad) (fun A r => ?_) r
  refine on_step (pointDec_sim R bad) (fun S r => ?_) r
  refine on_step (pointDec_sim R bad) (fun T1 r => ?_) r
  refine on_step (pointDec_sim R bad) (fun T2 r => ?_) r
  refine on_step (scalarDec_sim R) (fun taux r => ?_) r
  refine on_step (scalarDec_sim R) (fun mu r => ?_) r
  refine on_step (scalarDec_sim R) (fun t r => ?_) r
  have h := ipDec_sim R ⟨[], [], 0, 0⟩ r
  unfold tail7 Rd.bind
  cases hd : IP.Proof.decode R r with
  | err e =>
    rw [hd] at h
    exact h
  | panic =>
    rw [hd] at h
    exact h
  | ok q =>
    rw [hd] at h
    obtain ⟨h1, h2⟩ := h
    refine ⟨h1, ?_⟩
    simp only [Dec.on, h2]
    rfl

/-- C87: result, error and stream of `Proof.Decode` are those of `Model/RangeProof`, and on success the receiver is the decoded
proof. -/
theorem C87_rangeproof_model (R : Ristretto F G) (bad : G → Bytes → G) (incl : Bool) (p : Proof F G) (r : Reader) :
    Dec.Sim (Proof.dec R bad incl p r) (p.decode R incl r) id := by
  cases incl
  · have h : Proof.dec R bad false p r = tail0 R bad p r := by
      show Dec.bind (Dec.pure ()) (fun _ => tail0 R bad) p r = _
      simp [Dec.bind, Dec.pure]
    rw [h]
    exact tail_sim R bad p r
  · show Dec.Sim (Dec.bind (Dec.bind (commitmentsDec R) fun V => Dec.set fun p => { p with V := V }) (fun _ => tail0 R bad) p r) _ _
    unfold commitmentsDec
    change Dec.Sim _ (((readU32 r).bind fun q => readTimes (Commitment.decode R) q.1 q.2).bind fun q2 => _) _
    cases h1 : readU32 r with
    | err e => simp [Dec.Sim, Dec.bind, Dec.read, h1, Res.bind]
    | panic => simp [Dec.Sim, Dec.bind, Dec.read, h1, Res.bind]
    | ok q =>
    simp only [Res.bind]
    cases h2 : readTimes (Commitment.decode R) q.1 q.2 with
    | err e => simp [Dec.Sim, Dec.bind, Dec.read, Dec.make, h1, h2]
    | panic => simp [Dec.Sim, Dec.bind, Dec.read, Dec.make, h1, h2]
    | ok q2 =>
    have h3 := tail_sim R bad { p with V := q2.1 } q2.2
    have h4 : Dec.bind (Dec.bind (Dec.bind (Dec.read readU32) fun lenV =>
        Dec.bind (Dec.make lenV id) fun _ => Dec.read (readTimes (Commitment.decode R) lenV)) fun V => Dec.set fun p => { p with V := V })
        (fun _ => tail0 R bad) p r =
        { tail0 R bad { p with V := q2.1 } q2.2 with made := q.1 + (tail0 R bad { p with V := q2.1 } q2.2).made } := by
      simp [Dec.bind, Dec.read, Dec.make, Dec.set, h1, h2]
    rw [h4]
    exact h3

/-- C87 (violated): a failed `Decode` may leave a mixture: the first point of the new proof and the rest of the old one. -/
theorem C87_rangeproof_mixture_violated (R : Ristretto F G) (bad : G → Bytes → G) (p : Proof F G) (r : Reader)
    (h1 : 32 ≤ r.flat.length) (h2 : r.flat.length < 64) (hp : (R.pOfBytes (r.flat.take 32)).2 = true) :
    let o := Proof.dec R bad false p r
    o.res.IsErr ∧ o.recv = { p with A := (R.pOfBytes (r.flat.take 32)).1 } ∧ o.made = 0 := by
  have h := C87_rangeproof_bare R bad p r
  have hb : blocks r.flat 0 = r.flat.take 32 := by simp [blocks]
  have hn : ∀ j, 2 ≤ j → ¬ reach R r.flat j := fun j hj hr => by have := hr.1; omega
  have hA : leftPoint R bad r.flat 0 p.A = (R.pOfBytes (r.flat.take 32)).1 := by
    unfold leftPoint
    rw [if_pos ⟨⟨by omega, fun j hj => by omega⟩, by omega⟩, hb, if_pos hp]
  have hS : leftPoint R bad r.flat 1 p.S = p.S := if_neg fun h => by have := h.2; omega
  refine ⟨h.failed (Or.inl (hn 7 (by omega))), ?_, h.made.1 (Or.inl (hn 7 (by omega)))⟩
  have e1 := h.V
  have e2 := h.A
  have e3 := h.S
  have e4 := h.T1
  have e5 := h.T2
  have e6 := h.taux
  have e7 := h.mu
  have e8 := h.t
  have e9 := h.ipOld (hn 7 (by omega))
  rw [hA] at e2
  rw [hS] at e3
  rw [leftPoint_of_not (hn 2 (by omega))] at e4
  rw [leftPoint_of_not (hn 3 (by omega))] at e5
  rw [leftScalar_of_not (hn 4 (by omega))] at e6
  rw [leftScalar_of_not (hn 5 (by omega))] at e7
  rw [leftScalar_of_not (hn 6 (by omega))] at e8
  generalize (Proof.dec R bad false p r).recv = q at *
  cases q
  simp_all

/-- The hypotheses of the theorem above can be met: the encoding of a point and nothing else. -/
example (p : Proof Toy.K Toy.K) (P : Toy.K) (bad : Toy.K → Bytes → Toy.K) :
    (Proof.dec Toy.ris bad false p (Reader.ofBytes (Toy.ris.pBytes P))).recv = { p with A := P } := by
  have hf : (Reader.ofBytes (Toy.ris.pBytes P)).flat = Toy.ris.pBytes P := by simp [Reader.ofBytes, Reader.flat]
  have hl := Toy.ris_encodings.pBytes_length P
  have hd := Toy.ris_encodings.pOfBytes_pBytes P
  obtain ⟨-, h, -⟩ := C87_rangeproof_mixture_violated Toy.ris bad p (Reader.ofBytes (Toy.ris.pBytes P)) (by rw [hf, hl])
    (by rw [hf, hl]; norm_num) (by rw [hf, List.take_of_length_le (by rw [hl]), hd])
  rw [h, hf, List.take_of_length_le (by rw [hl]), hd]

end RP

end Dusk
