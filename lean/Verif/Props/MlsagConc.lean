import Mathlib.Data.Fintype.Basic
import Mathlib.Data.Finset.Basic
import Mathlib.Data.Fintype.EquivFin
import Verif.Lemmas.MlsagConc
import Verif.Props.MlsagSecrets
import Verif.Props.Binding
import Verif.Props.Trace
/-!
# C136: one DualKey used by several goroutines
-/

namespace Dusk.MlsagConc

open Mlsag

variable {F G ι : Type} [Field F] [AddCommGroup G] [Module F G] [DecidableEq F] [DecidableEq ι]

/-! ## Calls one after another -/

/-- The effect of a call as in `Model/Mlsag.lean`: the DualKey afterwards and what is returned. -/
def Call.alone (R : Ristretto F G) (d : DualKey F G) : Call F G → DualKey F G × Res (Reply F G)
  | addDecoy keys => ({ d with proof := d.proof.addDecoy keys }, .ok .nothing)
  | addDecoys keys => ({ d with proof := d.proof.addDecoys keys }, .ok .nothing)
  | addSecret x => ({ d with proof := d.proof.addSecret R x }, .ok .nothing)
  | setMsg msg => (d.setMsg msg, .ok .nothing)
  | setPrimaryKey x => ((d.setPrimaryKey R x).1, .ok (.key (d.setPrimaryKey R x).2))
  | setCommToZero x => ((d.setCommToZero R x).1, .ok (.key (d.setCommToZero R x).2))
  | subCommToZero P =>
    match d.subCommToZero P with
    | .ok d => (d, .ok .nothing)
    | .err e => (d, .err e)
    | .panic => (d, .panic)
  | lenMembers => (d, .ok (.number d.proof.matrix.length))
  | prove coins => ((d.prove R coins).1, (d.prove R coins).2.bind fun s => .ok (.signature s.1 s.2))

omit [DecidableEq ι] in
/-- C136: a call that runs without interruption has the effect of the method (if `SubCommToZero` panics, the ring is left as it is
then). -/
theorem C136_alone (R : Ristretto F G) (d : DualKey F G) (c : Call F G) :
    (run d (c.prog R)).2 = (c.alone R d).2 ∧ ((c.alone R d).2 ≠ .panic → (run d (c.prog R)).1 = (c.alone R d).1) ∧
      ((∀ P, c ≠ .subCommToZero P) → run d (c.prog R) = c.alone R d) := by
  have key : ∀ {x y : DualKey F G × Res (Reply F G)} {q : Prop}, x = y → x.2 = y.2 ∧ (y.2 ≠ .panic → x.1 = y.1) ∧ (q → x = y) := by
    rintro x y q rfl; exact ⟨rfl, fun _ => rfl, fun _ => rfl⟩
  cases c with
  | addDecoy keys => exact key rfl
  | addDecoys keys => exact key (by rw [Call.prog, run_bind_ok (run_addDecoys keys d)]; rfl)
  | addSecret x => exact key rfl
  | setMsg msg => exact key rfl
  | setPrimaryKey x => exact key rfl
  | setCommToZero x => exact key rfl
  | lenMembers => exact key rfl
  | prove coins =>
    refine key ?_
    rw [Call.prog, run_bind, run_dualProve, Call.alone]
    generalize d.prove R coins = q
    obtain ⟨d', r⟩ := q
    cases r <;> rfl
  | subCommToZero P =>
    obtain ⟨h1, h2⟩ := run_subLoop P d.proof.matrix.length 0 d [] d.proof.matrix rfl rfl rfl
    have e : run d ((Call.subCommToZero P : Call F G).prog R) = run d ((subLoopP P d.proof.matrix.length 0).bind fun _ => done .nothing) := rfl
    rw [e, run_bind, Call.alone, DualKey.subCommToZero]
    generalize hr : run d (subLoopP P d.proof.matrix.length 0) = q at h1 h2 ⊢
    obtain ⟨d', r⟩ := q
    dsimp only at h1 h2
    cases hm : mapRes (PubKeys.subSecond P) d.proof.matrix with
    | ok m =>
      rw [hm, Res.bind_ok] at h1
      subst h1
      rw [h2 m hm]
      exact ⟨rfl, fun _ => rfl, fun h => absurd rfl (h P)⟩
    | err e =>
      exfalso
      have hn : NoErr (mapRes (PubKeys.subSecond P) d.proof.matrix) :=
        NoErr.mapRes _ (fun k => (NoErr.idx _ _).bind fun _ _ => NoErr.ok _) _
      rw [hm] at hn
      rcases hn with ⟨_, h⟩ | h <;> cases h
    | panic =>
      rw [hm] at h1
      change r = .panic at h1
      subst h1
      exact ⟨rfl, fun h => absurd rfl h, fun h => absurd rfl (h P)⟩

/-! ## Adding decoys -/

/-- The DualKey after the decoys of the goroutines in `l` have been appended to its ring. -/
def grown (d : DualKey F G) (keys : ι → PubKeys G) (l : List ι) : DualKey F G :=
  { d with proof := { d.proof with matrix := d.proof.matrix ++ l.map fun i => { keys i with decoy := true } } }

/-- Goroutine `i` adds the decoy `keys i`. -/
def adding (R : Ristretto F G) (d : DualKey F G) (keys : ι → PubKeys G) : Shared (DualKey F G) ι (Reply F G) :=
  calling R d fun i => .addDecoy (keys i)

/-- All calls have returned. -/
def Finished (s : Shared (DualKey F G) ι (Reply F G)) : Prop := ∀ i, s.prog i = .ret (.ok .nothing)

/-- A goroutine that has read the ring with the decoys of `l`. -/
def loaded (d : DualKey F G) (keys : ι → PubKeys G) (l : List ι) (i : ι) : Prog (DualKey F G) (Reply F G) :=
  .store (fun e => { e with proof := { e.proof with matrix := (grown d keys l).proof.matrix ++ [{ keys i with decoy := true }] } })
    (.ret (.ok .nothing))

/-- What holds during every execution: `D` are the goroutines that have written. -/
def During (R : Ristretto F G) (d : DualKey F G) (keys : ι → PubKeys G) (s : Shared (DualKey F G) ι (Reply F G)) (D : Finset ι) : Prop :=
  (∃ l : List ι, l.Nodup ∧ (∀ i ∈ l, i ∈ D) ∧ s.obj = grown d keys l ∧ (D.Nonempty → l ≠ [])) ∧
    (∀ i ∈ D, s.prog i = .ret (.ok .nothing)) ∧
    ∀ i ∉ D, s.prog i = (Call.addDecoy (keys i) : Call F G).prog R ∨
      ∃ l : List ι, l.Nodup ∧ (∀ j ∈ l, j ∈ D) ∧ s.prog i = loaded d keys l i

theorem during_step {R : Ristretto F G} {d : DualKey F G} {keys : ι → PubKeys G} {s : Shared (DualKey F G) ι (Reply F G)} {D : Finset ι}
    (h : During R d keys s D) (i : ι) : ∃ D', During R d keys (s.step i) D' := by
  obtain ⟨⟨l, hl, hlD, hobj, hne⟩, hd, hn⟩ := h
  by_cases hi : i ∈ D
  · refine ⟨D, ⟨l, hl, hlD, ?_, hne⟩, fun j hj => ?_, fun j hj => ?_⟩
    · simp only [Shared.step, hd i hi, step, hobj]
    · by_cases hji : j = i
      · subst hji; simp only [Shared.step, hd j hj, step, Function.update_self]
      · simp only [Shared.step, Function.update_of_ne hji, hd j hj]
    · have hji : j ≠ i := fun e => hj (e ▸ hi)
      simp only [Shared.step, Function.update_of_ne hji]
      exact hn j hj
  · rcases hn i hi with h | ⟨l', hl', hlD', h⟩
    · refine ⟨D, ⟨l, hl, hlD, ?_, hne⟩, fun j hj => ?_, fun j hj => ?_⟩
      · simp only [Shared.step, h]
        rw [← hobj]; rfl
      · have hji : j ≠ i := fun e => hi (e ▸ hj)
        simp only [Shared.step, Function.update_of_ne hji, hd j hj]
      · by_cases hji : j = i
        · subst hji
          refine .inr ⟨l, hl, hlD, ?_⟩
          simp only [Shared.step, h, Function.update_self, hobj]
          rfl
        · simp only [Shared.step, Function.update_of_ne hji]
          exact hn j hj
    · have hil : i ∉ l' := fun e => hi (hlD' i e)
      refine ⟨insert i D, ⟨l' ++ [i], ?_, ?_, ?_, fun _ => by simp⟩, fun j hj => ?_, fun j hj => ?_⟩
      · exact List.nodup_append.2 ⟨hl', List.nodup_singleton _, by rintro a ha b hb rfl; rw [List.mem_singleton.1 hb] at ha; exact hil ha⟩
      · intro j hj
        rcases List.mem_append.1 hj with hj | hj
        · exact Finset.mem_insert_of_mem (hlD' j hj)
        · rw [List.mem_singleton.1 hj]; exact Finset.mem_insert_self _ _
      · simp only [Shared.step, h, loaded, step, hobj, grown]
        simp
      · by_cases hji : j = i
        · subst hji; simp only [Shared.step, h, loaded, step, Function.update_self]
        · simp only [Shared.step, Function.update_of_ne hji]
          exact hd j ((Finset.mem_insert.1 hj).resolve_left hji)
      · obtain ⟨hji, hjD⟩ := not_or.1 (fun e => hj (Finset.mem_insert.2 e))
        simp only [Shared.step, Function.update_of_ne hji]
        rcases hn j hjD with h' | ⟨T', hT', hTD', h'⟩
        · exact .inl h'
        · exact .inr ⟨T', hT', fun a ha => Finset.mem_insert_of_mem (hTD' a ha), h'⟩

theorem during_exec {R : Ristretto F G} {d : DualKey F G} {keys : ι → PubKeys G} (sched : List ι) :
    ∀ {s : Shared (DualKey F G) ι (Reply F G)} {D : Finset ι}, During R d keys s D → ∃ D', During R d keys (s.exec sched) D' := by
  induction sched with
  | nil => exact fun h => ⟨_, h⟩
  | cons i sched ih =>
    intro s D h
    obtain ⟨D', h'⟩ := during_step h i
    exact ih h'

omit [DecidableEq ι] in
theorem during_start (R : Ristretto F G) (d : DualKey F G) (keys : ι → PubKeys G) : During R d keys (adding R d keys) ∅ :=
  ⟨⟨[], List.nodup_nil, by simp, by simp [adding, calling, grown], fun h => absurd h Finset.not_nonempty_empty⟩, by simp,
    fun _ _ => .inl rfl⟩

/-- Two steps of a goroutine that has not started. -/
theorem exec_call {R : Ristretto F G} {s : Shared (DualKey F G) ι (Reply F G)} {k : PubKeys G} {i : ι}
    (hi : s.prog i = (Call.addDecoy k : Call F G).prog R) :
    s.exec [i, i] = ⟨{ s.obj with proof := s.obj.proof.addDecoy k }, Function.update s.prog i (.ret (.ok .nothing))⟩ := by
  simp only [Shared.exec, List.foldl_cons, List.foldl_nil]
  have h1 : s.step i = ⟨s.obj, Function.update s.prog i (.store
      (fun e => { e with proof := { e.proof with matrix := s.obj.proof.matrix ++ [{ k with decoy := true }] } }) (.ret (.ok .nothing)))⟩ := by
    rw [Shared.step, hi]; rfl
  rw [h1, Shared.step]
  simp only [Function.update_self, step, Function.update_idem]
  rfl

/-- Goroutines one after another. -/
theorem exec_calls (R : Ristretto F G) (keys : ι → PubKeys G) (l : List ι) : ∀ {s : Shared (DualKey F G) ι (Reply F G)}, l.Nodup →
    (∀ i ∈ l, s.prog i = (Call.addDecoy (keys i) : Call F G).prog R) →
    (s.exec (l.flatMap fun i => [i, i])).obj = grown s.obj keys l ∧
      ∀ i, (s.exec (l.flatMap fun i => [i, i])).prog i = if i ∈ l then .ret (.ok .nothing) else s.prog i := by
  induction l with
  | nil => intro s _ _; simp [Shared.exec, grown]
  | cons i l ih =>
    intro s hnd hp
    obtain ⟨hil, hnd⟩ := List.nodup_cons.1 hnd
    rw [List.flatMap_cons, exec_append, exec_call (hp i List.mem_cons_self)]
    obtain ⟨h1, h2⟩ := ih (s := ⟨{ s.obj with proof := s.obj.proof.addDecoy (keys i) }, Function.update s.prog i (.ret (.ok .nothing))⟩) hnd
      fun j hj => by
        have hji : j ≠ i := fun e => hil (e ▸ hj)
        simp only [Function.update_of_ne hji]
        exact hp j (List.mem_cons_of_mem _ hj)
    refine ⟨by rw [h1]; simp [grown, Proof.addDecoy, Proof.addPubKeys], fun j => ?_⟩
    rw [h2]
    by_cases hji : j = i
    · subst hji; simp
    · simp [hji]

/-- C136: calls of AddDecoy that exclude each other (for instance by a mutex of the caller) add all decoys, in the order of the calls. -/
theorem C136_decoys_locked (R : Ristretto F G) (d : DualKey F G) (keys : ι → PubKeys G) (order : List ι) (hnd : order.Nodup)
    (hall : ∀ i, i ∈ order) :
    ((adding R d keys).exec (order.flatMap fun i => [i, i])).obj = grown d keys order ∧
      Finished ((adding R d keys).exec (order.flatMap fun i => [i, i])) := by
  obtain ⟨h1, h2⟩ := exec_calls R keys order (s := adding R d keys) hnd fun _ _ => rfl
  exact ⟨h1, fun i => by rw [h2, if_pos (hall i)]⟩

/-- C136: the rings that there can be after every goroutine has added a decoy: those with the decoys of any non-empty list of different
goroutines. All other decoys are lost. -/
theorem C136_decoys_violated [Fintype ι] [Nonempty ι] (R : Ristretto F G) (d : DualKey F G) (keys : ι → PubKeys G) (x : DualKey F G) :
    (∃ sched, Finished ((adding R d keys).exec sched) ∧ ((adding R d keys).exec sched).obj = x) ↔
      ∃ l : List ι, l ≠ [] ∧ l.Nodup ∧ x = grown d keys l := by
  constructor
  · rintro ⟨sched, hf, rfl⟩
    obtain ⟨D, ⟨l, hl, -, hobj, hne⟩, -, hn⟩ := during_exec sched (during_start R d keys)
    refine ⟨l, hne ?_, hl, hobj⟩
    obtain ⟨i⟩ := ‹Nonempty ι›
    refine ⟨i, ?_⟩
    by_contra hi
    rcases hn i hi with h | ⟨_, _, _, h⟩
    · rw [hf i] at h; cases h
    · rw [hf i] at h; cases h
  · rintro ⟨l, hne, hnd, rfl⟩
    obtain ⟨i, l, rfl⟩ := List.exists_cons_of_ne_nil hne
    obtain ⟨hil, hnd⟩ := List.nodup_cons.1 hnd
    set rest : List ι := (Finset.univ.filter fun j => j ≠ i ∧ j ∉ l).toList with hrest
    have hr : ∀ j, j ∈ rest ↔ j ≠ i ∧ j ∉ l := by intro j; rw [hrest, Finset.mem_toList]; simp
    -- the first goroutine reads the ring
    have s1 : (adding R d keys).exec [i] = ⟨d, Function.update (adding R d keys).prog i (loaded d keys [] i)⟩ := by
      simp only [Shared.exec, List.foldl_cons, List.foldl_nil, Shared.step, loaded, grown, List.map_nil, List.append_nil]
      rfl
    -- those whose decoys get lost add them
    obtain ⟨a1, a2⟩ := exec_calls R keys rest (s := ⟨d, Function.update (adding R d keys).prog i (loaded d keys [] i)⟩) (Finset.nodup_toList _)
      fun j hj => by dsimp only; rw [Function.update_of_ne ((hr j).1 hj).1]; rfl
    generalize ht : (Shared.exec ⟨d, Function.update (adding R d keys).prog i (loaded d keys [] i)⟩ (rest.flatMap fun i => [i, i])) = t at a1 a2
    dsimp only at a1 a2
    have hti : t.prog i = loaded d keys [] i := by rw [a2, if_neg fun h => ((hr i).1 h).1 rfl, Function.update_self]
    -- the first goroutine writes
    have s2 : t.exec [i] = ⟨grown d keys [i], Function.update t.prog i (.ret (.ok .nothing))⟩ := by
      simp only [Shared.exec, List.foldl_cons, List.foldl_nil, Shared.step, hti, loaded, step, a1, grown, List.map_nil, List.append_nil,
        List.map_cons]
    -- the others follow
    obtain ⟨b1, b2⟩ := exec_calls R keys l (s := ⟨grown d keys [i], Function.update t.prog i (.ret (.ok .nothing))⟩) hnd fun j hj => by
      have hji : j ≠ i := fun e => hil (e ▸ hj)
      dsimp only
      rw [Function.update_of_ne hji, a2, if_neg fun h => ((hr j).1 h).2 hj, Function.update_of_ne hji]
      rfl
    refine ⟨[i] ++ (rest.flatMap fun i => [i, i]) ++ [i] ++ (l.flatMap fun i => [i, i]), ?_⟩
    rw [exec_append, exec_append, exec_append, s1, ht, s2]
    refine ⟨fun j => ?_, by rw [b1]; simp [grown]⟩
    rw [b2]
    split
    · rfl
    · rename_i hjl
      dsimp only
      by_cases hji : j = i
      · subst hji; rw [Function.update_self]
      · rw [Function.update_of_ne hji, a2, if_pos ((hr j).2 ⟨hji, hjl⟩)]

/-! ## Calls while Prove runs -/

/-- `DualKey.Prove` up to the point where the signature is put together. -/
def beforePack (R : Ristretto F G) (coins : Coins F) : Prog (DualKey F G) ((F × List (List F)) × List G) :=
  keysP.bind fun _ => (secretsP R).bind fun _ => (prepareP coins.shuffle).bind fun _ => signP R true coins

/-- `DualKey.Prove` after the signature was put together. -/
def afterPack (s : Signature F G × List G) : Prog (DualKey F G) (Reply F G) :=
  (match s.2 with
    | [im] => done (s.1, im)
    | _ => .ret (.err "dual key mlsag must only contain one key image" : Res (Signature F G × G))).bind fun s => done (.signature s.1 s.2)

omit [DecidableEq ι] in
theorem prog_prove (R : Ristretto F G) (coins : Coins F) : (Call.prove coins : Call F G).prog R =
    (beforePack R coins).bind fun r => (packP r).bind afterPack := by
  simp only [Call.prog, dualProveP, proveP, beforePack, bind_assoc]
  rfl

omit [Field F] [AddCommGroup G] [Module F G] [DecidableEq F] [DecidableEq ι] in
theorem run_bind_inv {S α β : Type} {p : Prog S α} {f : α → Prog S β} {s s' : S} {b : β} (h : run s (p.bind f) = (s', .ok b)) :
    ∃ t a, run s p = (t, .ok a) ∧ run t (f a) = (s', .ok b) := by
  rw [run_bind] at h
  generalize hr : run s p = q at h
  obtain ⟨t, r⟩ := q
  cases r with
  | ok a => exact ⟨t, a, rfl, h⟩
  | err e => cases h
  | panic => cases h

omit [DecidableEq ι] in
/-- What Prove has computed when it puts the signature together. -/
theorem before_ok {R : Ristretto F G} {coins : Coins F} {d : DualKey F G} {sig : Signature F G} {im : G}
    (h : (d.prove R coins).2 = .ok (sig, im)) :
    run d (beforePack R coins) = ((d.prove R coins).1, .ok ((sig.c, sig.r), [im])) ∧
      sig.pubKeys = (d.prove R coins).1.proof.matrix ∧ sig.msg = (d.prove R coins).1.proof.msg := by
  have hr := (C136_alone R d (.prove coins)).2.2 (by simp)
  rw [prog_prove, Call.alone, h, Res.bind_ok] at hr
  obtain ⟨t, a, h1, h2⟩ := run_bind_inv hr
  obtain ⟨r, I⟩ := a
  have h3 : run t ((packP (r, I)).bind afterPack) = run t (afterPack (⟨r.1, r.2, t.proof.matrix, t.proof.msg⟩, I)) := rfl
  rw [h3] at h2
  rcases I with _ | ⟨a, _ | ⟨b, l⟩⟩
  · cases h2
  · have h4 : run t (afterPack (⟨r.1, r.2, t.proof.matrix, t.proof.msg⟩, [a])) =
      (t, .ok (.signature ⟨r.1, r.2, t.proof.matrix, t.proof.msg⟩ a)) := rfl
    rw [h4] at h2
    simp only [Prod.mk.injEq, Res.ok.injEq, Reply.signature.injEq] at h2
    obtain ⟨rfl, rfl, rfl⟩ := h2
    exact ⟨h1, rfl, rfl⟩
  · cases h2

/-- Another call that runs while Prove puts the signature together. -/
theorem exec_pack {R : Ristretto F G} {coins : Coins F} {d : DualKey F G} {calls : ι → Call F G} {i j : ι} (hij : i ≠ j)
    (hi : calls i = .prove coins) {sig : Signature F G} {im : G} (h : (d.prove R coins).2 = .ok (sig, im)) {d' : DualKey F G}
    {r : Reply F G} (hj : run (d.prove R coins).1 ((calls j).prog R) = (d', .ok r)) :
    ∃ sched, ((calling R d calls).exec sched).prog j = .ret (.ok r) ∧
      ((calling R d calls).exec sched).prog i = .ret (.ok (.signature ⟨sig.c, sig.r, d'.proof.matrix, d'.proof.msg⟩ im)) ∧
      ((calling R d calls).exec sched).obj = d' := by
  obtain ⟨b1, -, -⟩ := before_ok h
  obtain ⟨sched, e⟩ := exec_between (s := calling R d calls) (r' := .ok (.signature ⟨sig.c, sig.r, d'.proof.matrix, d'.proof.msg⟩ im))
    (v := d') hij (by rw [calling, ← prog_prove, ← hi]) b1 hj rfl
  exact ⟨sched, by rw [e]; simp [hij.symm], by rw [e]; simp, by rw [e]⟩

omit [DecidableEq ι] in
/-- What Prove returns for a DualKey on which only the setters and AddDecoy were called is accepted. -/
theorem accepted_of_ok {R : Ristretto F G} {ops : List (EOp F G)} {d : DualKey F G} (hd : EOp.run R DualKey.new ops = .ok d)
    {coins : Coins F} {sig : Signature F G} {im : G} (h : (d.prove R coins).2 = .ok (sig, im)) :
    im = image R d.key0 ∧ sig.verify R [im] = .ok true := by
  obtain ⟨h0, h1, hx, hm, hl⟩ := (C83_ok_iff R ops d hd coins).1 ⟨_, h⟩
  obtain ⟨sig', h', hv⟩ := (C83_outcome R ops d hd coins h0 h1).2.2.2 hm hl hx
  rw [h] at h'
  cases h'
  exact ⟨rfl, hv⟩

/-- C136: while Prove runs, SetMsg can change the message after all hashes were computed. Both calls succeed, and the signature
returned carries the new message. Verify accepts it only if the hash function has a collision. -/
theorem C136_message_violated {R : Ristretto F G} (E : R.Encodings) {ops : List (EOp F G)} {d : DualKey F G}
    (hd : EOp.run R DualKey.new ops = .ok d) {coins : Coins F} {sig : Signature F G} {im : G} (h : (d.prove R coins).2 = .ok (sig, im))
    {calls : ι → Call F G} {i j : ι} (hij : i ≠ j) (hi : calls i = .prove coins) (msg : Bytes) (hj : calls j = .setMsg msg) :
    (∃ sched, ((calling R d calls).exec sched).prog j = .ret (.ok .nothing) ∧
      ((calling R d calls).exec sched).prog i = .ret (.ok (.signature { sig with msg := msg } im))) ∧
    (sig.msg ≠ msg → Signature.verify R { sig with msg := msg } [im] = .ok true →
      ∃ a b : Bytes, a ≠ b ∧ R.sDerive a = R.sDerive b) := by
  refine ⟨?_, fun hm hv => ?_⟩
  · obtain ⟨-, b2, -⟩ := before_ok h
    obtain ⟨sched, h1, h2, -⟩ := exec_pack (r := .nothing) hij hi h
      (d' := { (d.prove R coins).1 with proof := { (d.prove R coins).1.proof with msg := msg } }) (by rw [hj]; rfl)
    refine ⟨sched, h1, ?_⟩
    rw [h2, ← b2]
  · obtain ⟨a, b⟩ := C121_mlsag_message E sig [im] msg hm (accepted_of_ok hd h).2 hv
    exact ⟨_, _, a, b⟩

omit [DecidableEq ι] in
/-- Verify does not look at keys for which there is no response. -/
theorem verify_extra (R : Ristretto F G) (sig : Signature F G) (I : List G) (h : sig.verify R I = .ok true) (more : List (PubKeys G)) :
    Signature.verify R { sig with pubKeys := sig.pubKeys ++ more } I = .ok true := by
  have hne : sig.pubKeys ≠ [] ∧ sig.r ≠ [] ∧ I ≠ [] := by
    by_contra hc
    have hc : sig.pubKeys = [] ∨ sig.r = [] ∨ I = [] := by tauto
    obtain ⟨e, he⟩ := C17_empty R sig I hc
    rw [h] at he
    cases he
  obtain ⟨hp, hr, hI⟩ := hne
  have hnp := mt (C26_panic_iff R sig I hp hr hI).2
  rw [h, not_not] at hnp
  obtain ⟨hlen, hf⟩ := hnp (by simp)
  have hring : ringOf { sig with pubKeys := sig.pubKeys ++ more } = ringOf sig := by
    simp only [ringOf, List.map_append]
    have hz : ∀ (a b : List (List G)) (r : List (List F)), r.length ≤ a.length → (a ++ b).zip r = a.zip r := by
      intro a b r hl
      rw [List.zip_eq_zip_take_min, List.zip_eq_zip_take_min (l₁ := a), List.length_append, min_eq_right hl, min_eq_right (by omega),
        List.take_append_of_le_length hl]
    exact hz _ _ _ (by simpa using hlen)
  have hr1 := mt List.length_eq_zero_iff.1 hr
  by_cases h1 : sig.r.length = 1
  · refine (C17_single R { sig with pubKeys := sig.pubKeys ++ more } I h1 (by simp only [List.length_append]; omega) hI
      (by rw [hring]; exact hf)).2 ?_
    rw [hring]
    exact (C17_single R sig I h1 hlen hI hf).1 h
  · refine (C17_verify R { sig with pubKeys := sig.pubKeys ++ more } I (by change 2 ≤ sig.r.length; omega)
      (by simp only [List.length_append]; omega) hI (by rw [hring]; exact hf)).1.2 ?_
    rw [hring]
    exact (C17_verify R sig I (by omega) hlen hI hf).1.1 h

/-- C136: while Prove runs, AddDecoy can enlarge the ring after all hashes were computed. Both calls succeed, and the ring of the signature
returned contains the decoy, without a response for it; Verify accepts the signature. -/
theorem C136_ring_violated {R : Ristretto F G} {ops : List (EOp F G)} {d : DualKey F G}
    (hd : EOp.run R DualKey.new ops = .ok d) {coins : Coins F} {sig : Signature F G} {im : G} (h : (d.prove R coins).2 = .ok (sig, im))
    {calls : ι → Call F G} {i j : ι} (hij : i ≠ j) (hi : calls i = .prove coins) (keys : PubKeys G) (hj : calls j = .addDecoy keys) :
    ∃ sched sig', ((calling R d calls).exec sched).prog j = .ret (.ok .nothing) ∧
      ((calling R d calls).exec sched).prog i = .ret (.ok (.signature sig' im)) ∧
      sig' = { sig with pubKeys := sig.pubKeys ++ [{ keys with decoy := true }] } ∧ sig'.verify R [im] = .ok true := by
  obtain ⟨-, b2, b3⟩ := before_ok h
  obtain ⟨sched, h1, h2, -⟩ := exec_pack (r := .nothing) hij hi h
    (d' := { (d.prove R coins).1 with proof := (d.prove R coins).1.proof.addDecoy keys }) (by rw [hj]; rfl)
  refine ⟨sched, _, h1, ?_, rfl, verify_extra R sig _ (accepted_of_ok hd h).2 _⟩
  rw [h2, b2]
  simp only [Proof.addDecoy, Proof.addPubKeys, ← b3]

omit [DecidableEq ι] [AddCommGroup G] [Module F G] in
theorem run_keys {d : DualKey F G} (h0 : d.key0 ≠ 0) (h1 : d.key1 ≠ 0) : run d keysP = (d, .ok ()) := by
  rw [keysP, run_read, if_neg h0, run_read, if_neg h1]; rfl

/-- C136: while Prove runs, SetPrimaryKey can change the key after it was found to be non-zero. Prove then signs with the new key; with the
key zero it returns a signature whose key image is the neutral element, and Verify accepts it. -/
theorem C136_zero_key_violated {R : Ristretto F G} {ops : List (EOp F G)} {d : DualKey F G}
    (hd : EOp.run R DualKey.new ops = .ok d) {coins : Coins F} (h : ∃ s, (d.prove R coins).2 = .ok s)
    {calls : ι → Call F G} {i j : ι} (hij : i ≠ j) (hi : calls i = .prove coins) (x : F) (hj : calls j = .setPrimaryKey x) :
    ∃ sched sig, ((calling R d calls).exec sched).prog j = .ret (.ok (.key (x • R.base))) ∧
      ((calling R d calls).exec sched).prog i = .ret (.ok (.signature sig (image R x))) ∧
      sig.verify R [image R x] = .ok true ∧ (x = 0 → image R x = 0) := by
  obtain ⟨h0, h1, hx, hm, hl⟩ := (C83_ok_iff R ops d hd coins).1 h
  obtain ⟨f1, f2, f3⟩ := Fresh'.run ops (Fresh'.new R) hd
  rw [List.nil_append, hx] at f1 f2
  set p := (d.proof.addSecret R x).addSecret R d.key1 with hp
  obtain ⟨sig, I, g1, g2, -⟩ := prove_gen R p true coins (by simp [hp, Proof.addSecret, PubKeys.addPubKey, privKeyToPubKey, f1, f2])
    (fun k hk => .inl (f3 k hk)) hm (by simp [hp, Proof.addSecret]) (by simp [hp, Proof.addSecret, f1])
    (by intro k hk; rw [hl k hk]; simp [hp, Proof.addSecret, f1])
  have hI := g2.images
  simp only [hp, Proof.addSecret, f1, List.nil_append, List.singleton_append, List.map_cons, List.map_nil, if_true, List.dropLast_cons_cons,
    List.dropLast_singleton] at hI
  subst hI
  have e0 : (Call.prove coins : Call F G).prog R = keysP.bind fun _ => (secretsP R).bind fun _ => (proveP R true coins).bind afterPack := by
    simp only [Call.prog, dualProveP, bind_assoc]
    rfl
  have hrj : run d ((calls j).prog R) = ({ d with key0 := x }, .ok (.key (x • R.base))) := by rw [hj]; rfl
  obtain ⟨sched, e⟩ := exec_between (s := calling R d calls) (r' := .ok (.signature sig (image R x)))
    (v := { d with key0 := x, proof := (p.prove R true coins).1 }) hij (by rw [calling, ← e0, ← hi]) (run_keys h0 h1) hrj (by
      rw [run_bind_ok (run_secrets R _), run_bind_ok (s' := { d with key0 := x, proof := (p.prove R true coins).1 })
        (a := (sig, [image R x])) (by rw [run_prove]; dsimp only; rw [← hp, g1])]
      rfl)
  exact ⟨sched, sig, by rw [e]; simp [hij.symm], by rw [e]; simp, g2.accepted, fun hx => by rw [hx, image, zero_smul]⟩

omit [Field F] [AddCommGroup G] [Module F G] [DecidableEq F] [DecidableEq ι] in
theorem run_prepare (shuffle : Nat → Nat) (d : DualKey F G) : ∃ p r, run d (prepareP shuffle) = ({ d with proof := p }, r) := by
  rw [prepareP, run_bind_ok (run_addSigner d), run_bind, run_shuffleSet]
  dsimp only
  generalize d.proof.addSignerPubKey.shuffleSet shuffle = s
  obtain ⟨p, r⟩ := s
  cases r with
  | err e => exact ⟨_, _, rfl⟩
  | panic => exact ⟨_, _, rfl⟩
  | ok u =>
    dsimp only
    rw [run_readP, run_readP, run_dims _ _ _ _ (by simp)]
    exact ⟨_, _, rfl⟩

omit [Field F] [AddCommGroup G] [Module F G] [DecidableEq F] [DecidableEq ι] in
theorem pure_bind {S α β : Type} {p : Prog S α} {f : α → Prog S β} {s : S} (h : ∃ r, run s p = (s, r) ∧ NoErr r)
    (hf : ∀ a, ∃ r, run s (f a) = (s, r) ∧ NoErr r) : ∃ r, run s (p.bind f) = (s, r) ∧ NoErr r := by
  obtain ⟨r, h1, ⟨a, rfl⟩ | rfl⟩ := h
  · rw [run_bind_ok h1]; exact hf a
  · exact ⟨.panic, run_bind_panic h1 _, .inr rfl⟩

omit [DecidableEq ι] [DecidableEq F] in
theorem run_chain (R : Ristretto F G) (coins : Coins F) (images : List G) (nonces : List F) (n k : Nat) (d : DualKey F G) :
    ∃ r, run d (chainP R coins images nonces n k) = (d, r) ∧ NoErr r := by
  rw [chainP, run_readP]
  dsimp only
  rw [run_readP, run_readP]
  refine pure_bind ⟨_, run_member _ _, NoErr.idx _ _⟩ fun keys => pure_bind ⟨_, run_ret _ _, ?_⟩ fun c1 =>
    pure_bind ⟨_, run_ring _ _ _ _ _ _ _ _ _, ?_⟩ fun s => ⟨_, rfl, NoErr.ok _⟩
  · exact (NoErr.mapRes _ (fun i => (NoErr.idx _ _).bind fun _ _ => NoErr.ok _) _).bind fun _ _ =>
        (NoErr.mapRes _ (fun i => (NoErr.idx _ _).bind fun _ _ => (NoErr.idx _ _).bind fun _ _ => NoErr.ok _) _).bind fun _ _ => NoErr.ok _
  · exact ringLoop_noErr _ (fun i s => (NoErr.idx _ _).bind fun _ _ => (NoErr.idx _ _).bind fun _ _ =>
        (generateChallenge_noErr _ _ _ _ _ _).bind fun _ _ => NoErr.ok _) _ _ _ _ _

omit [DecidableEq ι] [DecidableEq F] in
/-- With fewer nonces than secrets the real responses cannot be computed. -/
theorem run_responses_panic (R : Ristretto F G) (coins : Coins F) (images : List G) (nonces : List F) (n k : Nat) (d : DualKey F G)
    (hk : nonces.length < k) : run d (responsesP R coins images nonces n k) = (d, .panic) := by
  obtain ⟨r, h1, h2⟩ := run_chain R coins images nonces n k d
  rw [responsesP, run_bind, h1]
  rcases h2 with ⟨s, rfl⟩ | rfl
  swap
  · rfl
  dsimp only
  refine run_bind_panic (s' := d) ?_ _
  rcases NoErr.idx s.1 d.proof.index with ⟨c, hc⟩ | hc
  · rw [run_real _ _ d c hc]
    rw [mapRes_panic _ _ (fun i _ => (NoErr.idx _ _).bind fun _ _ => (NoErr.idx _ _).bind fun _ _ => NoErr.ok _)
      ⟨nonces.length, by simpa using hk, ?_⟩]
    rcases NoErr.idx d.proof.privKeys nonces.length with ⟨x, hx⟩ | hx <;> rw [hx]
    · simp [Res.bind, idx]
    · rfl
  · obtain ⟨k, rfl⟩ := Nat.exists_eq_succ_of_ne_zero (show k ≠ 0 by omega)
    exact run_real_panic _ _ d hc k 0

/-- C136: if two goroutines call Prove on one DualKey for which Prove would succeed, one of the calls can panic: it draws nonces for its
two secrets, the other call adds its secrets to the same list, and then the first one looks for a nonce for each secret. -/
theorem C136_panic_violated {R : Ristretto F G} {d : DualKey F G} {coins : Coins F} (h : ∃ s, (d.prove R coins).2 = .ok s)
    {calls : ι → Call F G} {i j : ι} (hij : i ≠ j) (hi : calls i = .prove coins) (coins' : Coins F) (hj : calls j = .prove coins') :
    ∃ sched, ((calling R d calls).exec sched).prog i = .ret .panic := by
  obtain ⟨⟨sig, im⟩, h⟩ := h
  have hkeys : d.key0 ≠ 0 ∧ d.key1 ≠ 0 := by
    by_contra hc
    rw [DualKey.prove, if_pos (by tauto)] at h
    cases h
  obtain ⟨b1, -, -⟩ := before_ok h
  rw [beforePack, run_bind_ok (run_keys hkeys.1 hkeys.2), run_bind_ok (run_secrets R d)] at b1
  obtain ⟨t, w, c1, c2⟩ := run_bind_inv b1
  obtain ⟨p, r, hpr⟩ := run_prepare coins.shuffle { d with proof := (d.proof.addSecret R d.key0).addSecret R d.key1 }
  rw [hpr] at c1
  simp only [Prod.mk.injEq] at c1
  obtain ⟨rfl, rfl⟩ := c1
  rw [signP] at c2
  obtain ⟨u, images, d1, d2⟩ := run_bind_inv c2
  rw [run_images] at d1
  simp only [Prod.mk.injEq] at d1
  obtain ⟨rfl, d1⟩ := d1
  -- the first call up to the number of nonces
  have ep : (Call.prove coins : Call F G).prog R = (keysP.bind fun _ => (secretsP R).bind fun _ => (prepareP coins.shuffle).bind fun _ =>
      (imagesP R true).bind fun images => (readP fun p => p.privKeys.length).bind fun l => done (images, l)).bind fun x =>
      (readP fun p => p.matrix.length).bind fun n => (readP fun p => p.privKeys.length).bind fun k =>
      (responsesP R coins x.1 (generateNonces coins.nonce x.2) n k).bind fun r => (packP (r, x.1)).bind afterPack := by
    simp only [Call.prog, dualProveP, proveP, signP, bind_assoc]
    rfl
  have eq : (Call.prove coins' : Call F G).prog R = (keysP.bind fun _ => secretsP R).bind fun _ =>
      (proveP R true coins').bind afterPack := by
    simp only [Call.prog, dualProveP, bind_assoc]
    rfl
  obtain ⟨sched, e⟩ := exec_between_part (s := calling R d calls) (r' := .panic) hij (by rw [calling, ← ep, ← hi]) (by rw [calling, ← eq, ← hj])
    (t := { d with proof := p }) (a := (images, p.privKeys.length))
    (by
      change run d _ = _
      rw [run_bind_ok (run_keys hkeys.1 hkeys.2), run_bind_ok (run_secrets R d), run_bind_ok hpr,
        run_bind_ok (by rw [run_images, d1])]
      rfl)
    (u := { d with proof := (p.addSecret R d.key0).addSecret R d.key1 }) (b := ())
    (by rw [run_bind_ok (run_keys (d := { d with proof := p }) hkeys.1 hkeys.2), run_secrets])
    (v := { d with proof := (p.addSecret R d.key0).addSecret R d.key1 })
    (by
      dsimp only
      rw [run_readP, run_readP]
      refine run_bind_panic (run_responses_panic _ _ _ _ _ _ _ ?_) _
      simp [generateNonces, Proof.addSecret])
  exact ⟨sched, by rw [e]; simp⟩

/-! ## Subtracting from the commitments -/

/-- A member of the ring with `P` subtracted from its second key. -/
def minus (P : G) (k : PubKeys G) : PubKeys G := { k with keys := k.keys.modify 1 (· - P) }

omit [DecidableEq ι] in
theorem mapRes_subSecond (P : G) (l : List (PubKeys G)) (h : ∀ k ∈ l, 2 ≤ k.keys.length) : mapRes (PubKeys.subSecond P) l = .ok (l.map (minus P)) := by
  induction l with
  | nil => rfl
  | cons k l ih =>
    have hk := h k (by simp)
    have e : PubKeys.subSecond P k = .ok (minus P k) := by
      rw [PubKeys.subSecond, idx_some (List.getElem?_eq_getElem (by omega)), Res.bind_ok, minus, List.modify_eq_set_getElem?,
        List.getElem?_eq_getElem (by omega)]
      rfl
    rw [mapRes, e, Res.bind_ok, ih fun k hk => h k (by simp [hk]), Res.bind_ok]
    rfl

omit [DecidableEq ι] in
theorem run_subCall (R : Ristretto F G) (d : DualKey F G) (P : G) (h : ∀ k ∈ d.proof.matrix, 2 ≤ k.keys.length) :
    run d ((Call.subCommToZero P : Call F G).prog R) =
      ({ d with proof := { d.proof with matrix := d.proof.matrix.map (minus P) } }, .ok .nothing) := by
  obtain ⟨h1, h2, -⟩ := C136_alone R d (.subCommToZero P)
  have e : (Call.subCommToZero P : Call F G).alone R d =
      ({ d with proof := { d.proof with matrix := d.proof.matrix.map (minus P) } }, .ok .nothing) := by
    rw [Call.alone, DualKey.subCommToZero, mapRes_subSecond P _ h]
    rfl
  rw [e] at h1 h2
  exact Prod.ext (h2 (by simp)) h1

/-- C136: if two goroutines call SubCommToZero on a ring whose members have two keys, both calls can return although from the second key of
the first member only one of the two commitments was subtracted, and both from those of all others. -/
theorem C136_subtract_violated (R : Ristretto F G) (d : DualKey F G) {calls : ι → Call F G} {i j : ι} (hij : i ≠ j) {P Q : G}
    (hi : calls i = .subCommToZero P) (hj : calls j = .subCommToZero Q) {k : PubKeys G} {rest : List (PubKeys G)}
    (hm : d.proof.matrix = k :: rest) (h2 : ∀ k ∈ d.proof.matrix, 2 ≤ k.keys.length) :
    ∃ sched, ((calling R d calls).exec sched).prog i = .ret (.ok .nothing) ∧ ((calling R d calls).exec sched).prog j = .ret (.ok .nothing) ∧
      ((calling R d calls).exec sched).obj.proof.matrix = minus P k :: rest.map (minus (P + Q)) := by
  have hk := h2 k (by simp [hm])
  set K := k.keys[1]
  have hK : ((idx d.proof.matrix 0).bind fun m => idx m.keys 1) = .ok K := by
    rw [hm, idx_some (List.getElem?_cons_zero), Res.bind_ok, idx_some (List.getElem?_eq_getElem (by omega))]
  set u : DualKey F G := { d with proof := { d.proof with matrix := d.proof.matrix.map (minus Q) } } with hu
  set u' : DualKey F G := { d with proof := { d.proof with matrix := minus P k :: rest.map (minus Q) } } with hu'
  have hst : { u with proof := { u.proof with matrix := u.proof.matrix.modify 0 fun m => { m with keys := m.keys.set 1 (K - P) } } } = u' := by
    simp only [hu, hu', hm, List.map_cons, List.modify_zero_cons]
    congr 3
    simp only [minus, List.modify_eq_set_getElem?, List.getElem?_eq_getElem (show 1 < k.keys.length by omega)]
    simp [K]
  obtain ⟨r1, r2⟩ := run_subLoop P rest.length 1 u' [minus P k] (rest.map (minus Q)) rfl rfl (by simp)
  have hl : ∀ x ∈ rest.map (minus Q), 2 ≤ x.keys.length := by
    intro x hx
    obtain ⟨y, hy, rfl⟩ := List.mem_map.1 hx
    have := h2 y (by simp [hm, hy])
    simpa [minus] using this
  rw [mapRes_subSecond P _ hl] at r1
  have r2 := r2 _ (mapRes_subSecond P _ hl)
  have hr : run u' (subLoopP P rest.length 1) =
      ({ d with proof := { d.proof with matrix := minus P k :: rest.map (minus (P + Q)) } }, .ok ()) := by
    refine Prod.ext ?_ r1
    rw [r2, List.map_map]
    simp only [hu']
    congr 3
    change minus P k :: _ = _
    congr 1
    refine List.map_congr_left fun x _ => ?_
    simp only [minus, Function.comp]
    congr 1
    rw [List.modify_modify_eq]
    congr 1
    funext y
    simp only [Function.comp]
    abel
  obtain ⟨s1, e1⟩ := exec_part i (fun n => (subLoopP P n 0).bind fun _ => done .nothing) (readP fun p => p.matrix.length)
    (calling R d calls) (by simp only [calling, hi]; rfl)
  have e1 := e1 d d.proof.matrix.length rfl
  obtain ⟨s2, e2⟩ := exec_between (s := ⟨d, Function.update (calling R d calls).prog i
      ((subLoopP P d.proof.matrix.length 0).bind fun _ => done .nothing)⟩) (i := i) (j := j) hij
    (p := readR fun d => (idx d.proof.matrix 0).bind fun m => idx m.keys 1)
    (f := fun K => ((writeP fun p => { p with matrix := p.matrix.modify 0 fun m => { m with keys := m.keys.set 1 (K - P) } }).bind fun _ =>
      subLoopP P rest.length 1).bind fun _ => done .nothing)
    (by
      rw [hm]
      simp only [Function.update_self, List.length_cons, subLoopP, bind_assoc])
    (t := d) (a := K) (by rw [run_readR, hK])
    (u := u) (r := .ok .nothing) (by
      simp only [Function.update_of_ne hij.symm, calling, hj]
      exact run_subCall R d Q h2)
    (v := { d with proof := { d.proof with matrix := minus P k :: rest.map (minus (P + Q)) } }) (r' := .ok .nothing) (by
      rw [bind_assoc, run_writeP, hst, run_bind_ok hr]
      rfl)
  refine ⟨s1 ++ s2, ?_⟩
  rw [exec_append, e1, e2]
  simp [hij.symm]

/-! ## A concrete DualKey -/

/-- Calls that make a DualKey with two decoys of two keys and the secrets 5 and 7. -/
def toyOps : List (EOp Toy.K Toy.K) := [.op (.decoy ⟨false, [10, 11]⟩), .op (.decoy ⟨false, [12, 13]⟩), .op (.primary 5), .op (.comm 7)]

/-- What they make. -/
def toyKey : DualKey Toy.K Toy.K := ⟨{ matrix := [⟨true, [10, 11]⟩, ⟨true, [12, 13]⟩] }, 5, 7⟩

theorem toyKey_run : EOp.run Toy.ris DualKey.new toyOps = .ok toyKey := rfl

theorem toy_ne (n : Nat) (h0 : 0 < n) (hn : n < 100) : (n : Toy.K) ≠ 0 := by
  intro h
  rw [Toy.ris.cast_eq_zero n] at h
  have := Nat.le_of_dvd h0 h
  have := Toy.ris.two64_lt
  omega

/-- Prove succeeds on it, whatever is drawn. -/
theorem toyKey_ok (coins : Coins Toy.K) : ∃ s, (toyKey.prove Toy.ris coins).2 = .ok s := by
  refine (C83_ok_iff Toy.ris toyOps toyKey toyKey_run coins).2 ⟨?_, ?_, rfl, by simp [toyKey], by simp [toyKey]⟩
  · exact_mod_cast toy_ne 5 (by norm_num) (by norm_num)
  · exact_mod_cast toy_ne 7 (by norm_num) (by norm_num)

/-- Three goroutines add decoys: all of them with a lock, and only that of the second one with the schedule that the theorem gives. -/
example (k : Fin 3 → PubKeys Toy.K) : (∃ sched, Finished ((adding Toy.ris toyKey k).exec sched) ∧
      ((adding Toy.ris toyKey k).exec sched).obj.proof.matrix.length = 5) ∧
    ∃ sched, Finished ((adding Toy.ris toyKey k).exec sched) ∧ ((adding Toy.ris toyKey k).exec sched).obj.proof.matrix.length = 3 ∧
      ((adding Toy.ris toyKey k).exec sched).obj.proof.matrix.getLast? = some { k 1 with decoy := true } := by
  constructor
  · obtain ⟨h1, h2⟩ := C136_decoys_locked Toy.ris toyKey k [2, 0, 1] (by decide) (by decide)
    exact ⟨_, h2, by rw [h1]; rfl⟩
  · obtain ⟨sched, h1, h2⟩ := (C136_decoys_violated Toy.ris toyKey k (grown toyKey k [1])).2 ⟨[1], by simp, by simp, rfl⟩
    exact ⟨sched, h1, by rw [h2]; rfl, by rw [h2]; rfl⟩

/-- One goroutine signs, another one sets the message: the returned signature can carry the new message, which it does not sign. -/
example (coins : Coins Toy.K) : ∃ (sched : List Bool) (sig : Signature Toy.K Toy.K) (im : Toy.K),
    ((calling Toy.ris toyKey fun b => if b then .prove coins else .setMsg [1, 2, 3]).exec sched).prog true = .ret (.ok (.signature sig im)) ∧
      sig.msg = [1, 2, 3] := by
  obtain ⟨⟨sig, im⟩, h⟩ := toyKey_ok coins
  obtain ⟨⟨sched, -, h2⟩, -⟩ := C136_message_violated Toy.ris_encodings toyKey_run h
    (calls := fun b : Bool => if b then .prove coins else .setMsg [1, 2, 3]) (i := true) (j := false) (by decide) rfl [1, 2, 3] rfl
  exact ⟨sched, _, im, h2, rfl⟩

/-- One goroutine signs, another one adds a decoy: the returned signature can be accepted with a ring of four, whose last member has no
response. -/
example (coins : Coins Toy.K) : ∃ (sched : List Bool) (sig : Signature Toy.K Toy.K) (im : Toy.K),
    ((calling Toy.ris toyKey fun b => if b then .prove coins else .addDecoy ⟨false, [14, 15]⟩).exec sched).prog true =
      .ret (.ok (.signature sig im)) ∧ sig.verify Toy.ris [im] = .ok true ∧ sig.pubKeys.getLast? = some ⟨true, [14, 15]⟩ := by
  obtain ⟨⟨sig, im⟩, h⟩ := toyKey_ok coins
  obtain ⟨sched, sig', -, h2, h3, h4⟩ := C136_ring_violated toyKey_run h
    (calls := fun b : Bool => if b then .prove coins else .addDecoy ⟨false, [14, 15]⟩) (i := true) (j := false) (by decide) rfl _ rfl
  exact ⟨sched, sig', im, h2, h4, by rw [h3]; simp⟩

/-- One goroutine signs, another one sets the primary key to zero: a signature with the identity as key image is returned and accepted. -/
example (coins : Coins Toy.K) : ∃ (sched : List Bool) (sig : Signature Toy.K Toy.K),
    ((calling Toy.ris toyKey fun b => if b then .prove coins else .setPrimaryKey 0).exec sched).prog true =
      .ret (.ok (.signature sig 0)) ∧ sig.verify Toy.ris [0] = .ok true := by
  obtain ⟨sched, sig, -, h2, h3, h4⟩ := C136_zero_key_violated toyKey_run (toyKey_ok coins)
    (calls := fun b : Bool => if b then .prove coins else .setPrimaryKey 0) (i := true) (j := false) (by decide) rfl _ rfl
  rw [h4 rfl] at h2 h3
  exact ⟨sched, sig, h2, h3⟩

/-- Both goroutines sign: one of them can panic, although each would succeed alone. -/
example (coins : Bool → Coins Toy.K) : (∀ b, ∃ s, (toyKey.prove Toy.ris (coins b)).2 = .ok s) ∧
    ∃ sched : List Bool, ((calling Toy.ris toyKey fun b => .prove (coins b)).exec sched).prog true = .ret .panic :=
  ⟨fun b => toyKey_ok _, C136_panic_violated (toyKey_ok (coins true)) (i := true) (j := false) (by decide) rfl _ rfl⟩

/-- Both goroutines subtract: the ring can end as `[10, 10], [12, 11]`, where both subtractions give `[10, 9], [12, 11]`. -/
example : ∃ sched : List Bool,
    ((calling Toy.ris toyKey fun _ => .subCommToZero 1).exec sched).obj.proof.matrix = [⟨true, [10, 10]⟩, ⟨true, [12, 11]⟩] := by
  obtain ⟨sched, -, -, h⟩ := C136_subtract_violated Toy.ris toyKey (calls := fun _ : Bool => .subCommToZero 1) (i := true) (j := false)
    (by decide) (P := 1) (Q := 1) rfl rfl (k := ⟨true, [10, 11]⟩) (rest := [⟨true, [12, 13]⟩]) rfl (by simp [toyKey])
  refine ⟨sched, ?_⟩
  rw [h]
  simp only [minus, List.map_cons, List.map_nil, List.modify_succ_cons, List.modify_zero_cons]
  norm_num

end Dusk.MlsagConc
