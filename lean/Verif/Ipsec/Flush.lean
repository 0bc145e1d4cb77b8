import Verif.Ipsec.Viol
/-! # C57: flushing a VRF -/
namespace Verif.Ipsec

theorem drop_gain_bump (H : Nat → Nat) (a : Nat) (r : Option Nat) :
    drop1 (gain (bump H a) r) a = gain H r := by
  cases r with
  | none => exact drop_bump H a
  | some k =>
    funext x
    simp only [gain, drop1, bump]
    by_cases h1 : x = a
    · subst h1
      simp only [if_true]
      by_cases h2 : x = k
      · simp only [h2, if_true]; omega
      · simp only [h2, if_false]; omega
    · simp only [h1, if_false]

theorem next_step {n : Nat} {s : St} {A : Abs} (R : Reach n s A) {a : Nat}
    (h : Allowed A (.next a)) :
    RetOk n A (.next a) (.handle (spNext s a).2) ∧
      Reach n (spNext s a).1 (absStep A (.next a) (.handle (spNext s a).2)) := by
  obtain ⟨s', r, e, k, R'⟩ := policy_calls_exact R h
  have e' : step s (.next a) = some ((spNext s a).1, .handle (spNext s a).2) := by simp only [step]
  rw [e'] at e
  simp only [Option.some.injEq, Prod.mk.injEq] at e
  rw [e.1, e.2]
  exact ⟨k, R'⟩

theorem gain_bound {H : Nat → Nat} (hb : ∀ h, H h + 4 < 2 ^ 32) (r : Option Nat) (h : Nat) :
    gain H r h + 2 < 2 ^ 32 := by
  have := hb h
  generalize (2 : Nat) ^ 32 = M at *
  cases r with
  | none => simp only [gain]; omega
  | some k => simp only [gain, bump]; split <;> omega

theorem flush_loop {n vrf : Nat} {H : Nat → Nat} (hb : ∀ h, H h + 4 < 2 ^ 32) :
    ∀ (post pre : List Pol) (s : St) (A : Abs) (fuel : Nat), Reach n s A → A.db = pre ++ post →
    (∀ q ∈ A.db, q.phase = .pub) → A.held = gain H (post.head?.map Pol.h) → post.length < fuel →
    ∃ s' A', flushLoop vrf fuel s (post.head?.map Pol.h) = some (s', true) ∧ Reach n s' A' ∧
      A'.db = pre ++ post.filter (fun q => q.p.vrf ≠ vrf) ∧ A'.held = H
  | [], pre, s, A, fuel, R, e, _, hh, hf => by
    cases fuel with
    | zero => simp at hf
    | succ f => exact ⟨s, A, rfl, R, by simpa using e, hh⟩
  | q :: post, pre, s, A, fuel, R, e, hph, hh, hf => by
    cases fuel with
    | zero => simp at hf
    | succ f =>
      have hq : q ∈ A.db := by rw [e]; simp
      obtain ⟨I, hn⟩ := reach_inv R
      have hp := (I.cl q hq).2.1
      have hheld : A.held = bump H q.h := hh
      have hpos : 0 < A.held q.h := by rw [hheld]; simp [bump]
      have hbound : ∀ h, A.held h + 2 < 2 ^ 32 := fun h => by
        rw [hh]; exact gain_bound hb _ h
      have hnd := I.nd
      unfold dbh at hnd
      rw [e, List.map_append, List.map_cons] at hnd
      have hnp : q.h ∉ pre.map Pol.h := fun h =>
        (List.nodup_append.mp hnd).2.2 _ h _ (by simp) rfl
      have hfl := follower_split (l2 := post.map Pol.h) hnp
      simp only [List.head?_cons, Option.map_some, flushLoop, flushOne, hp]
      by_cases hv : q.p.vrf = vrf
      · rw [if_pos hv]
        obtain ⟨s1, r1, e1, k1, R1⟩ := policy_calls_exact R (op := .unpublish q.h)
          ⟨q, hq, rfl, hph q hq⟩
        have e1' : r1 = .code 0 := k1
        subst e1'
        obtain ⟨s2, r2, e2, k2, R2⟩ := policy_calls_exact R1 (op := .del q.h)
          ⟨{ q with phase := .unpub, sa := none }, mem_change.mpr ⟨q, hq, by simp⟩, rfl, rfl⟩
        have e2' : r2 = .code 0 := k2
        subst e2'
        have u1 : unpublish s q.h = some s1 := by
          simp only [step] at e1
          cases hu : unpublish s q.h with
          | none => rw [hu] at e1; exact absurd e1 (by simp)
          | some x => rw [hu] at e1; simp at e1; rw [e1]
        have u2 : spDel s1 q.h = some (s2, 0) := by
          simp only [step] at e2
          cases hu : spDel s1 q.h with
          | none => rw [hu] at e2; exact absurd e2 (by simp)
          | some x =>
            rw [hu] at e2
            simp only [Option.map_some, Option.some.injEq, Prod.mk.injEq, destroyRet,
              Ret.code.injEq] at e2
            have : x.2 = 0 := by
              by_contra hc
              rw [if_neg hc] at e2
              exact absurd e2.2 (by decide)
            rw [← e2.1, ← this]
        simp only [u1, Option.bind_some, u2, Option.map_some, if_true, decide_true, Bool.and_true]
        generalize hA2 : absStep (absStep A (.unpublish q.h) (.code 0)) (.del q.h) (.code 0) = A2
          at R2
        have d1 : A2.db = pre ++ post := by
          rw [← hA2]
          show (change _ q.h A.db).filter _ = _
          rw [← filter_split e I.nd]
          unfold change
          induction A.db with
          | nil => rfl
          | cons r l ih =>
            rw [List.map_cons, List.filter_cons, List.filter_cons, ih]
            by_cases e : r.h = q.h
            · simp [e]
            · simp [e]
        have d2 : A2.held = bump H q.h := by rw [← hA2, ← hheld]; rfl
        have d3 : A2.lastDel = some (q.h, post.head?.map Pol.h) := by
          rw [← hA2]
          show some (q.h, follower q.h ((change _ q.h A.db).map Pol.h)) = _
          rw [change_map (f := fun q => { q with phase := .unpub, sa := none }) (g := Pol.h)
            (fun q => rfl), e, List.map_append, List.map_cons, hfl, List.head?_map]
        have d4 : ¬ ∃ r ∈ A2.db, r.h = q.h := by
          rintro ⟨r, hr, er⟩
          have hmem : q.h ∈ A2.db.map Pol.h := er ▸ List.mem_map_of_mem hr
          rw [d1, List.map_append, List.mem_append] at hmem
          rcases hmem with h | h
          · exact hnp h
          · exact (List.nodup_cons.mp (List.nodup_append.mp hnd).2.1).1 h
        obtain ⟨k3, R3⟩ := next_step R2 (a := q.h)
          ⟨fun h => by rw [d2, ← hheld]; exact hbound h, by rw [d2]; simp [bump],
            Or.inr ⟨_, d3⟩⟩
        simp only [RetOk] at k3
        rw [if_neg d4, d3] at k3
        simp only [Option.some.injEq, Prod.mk.injEq, true_and] at k3
        rw [← k3] at R3 ⊢
        obtain ⟨s', A', f1, f2, f3, f4⟩ := flush_loop (vrf := vrf) hb post pre _ _ f R3 d1
          (by
            intro r hr
            have hr' : r ∈ pre ++ post := d1 ▸ hr
            apply hph; rw [e]
            rcases List.mem_append.mp hr' with h | h <;> simp [h])
          (by
            show drop1 (gain A2.held _) q.h = _
            rw [d2, drop_gain_bump])
          (by simp at hf; omega)
        refine ⟨s', A', by rw [f1], f2, ?_, f4⟩
        rw [f3, List.filter_cons]; simp [hv]
      · rw [if_neg hv]
        have d4 : ∃ r ∈ A.db, r.h = q.h := ⟨q, hq, rfl⟩
        obtain ⟨k3, R3⟩ := next_step R (a := q.h) ⟨hbound, hpos, Or.inl d4⟩
        simp only [RetOk] at k3
        rw [if_pos d4, e, List.map_append, List.map_cons, hfl] at k3
        simp only [decide_true, Bool.and_true]
        rw [k3] at R3 ⊢
        rw [List.head?_map] at R3 ⊢
        obtain ⟨s', A', f1, f2, f3, f4⟩ := flush_loop (vrf := vrf) hb post (pre ++ [q]) _ _ f R3
          (by show A.db = _; rw [e]; simp) hph
          (by
            show drop1 (gain A.held _) q.h = _
            rw [hheld, drop_gain_bump])
          (by simp at hf; omega)
        refine ⟨s', A', by rw [f1], f2, ?_, f4⟩
        rw [f3, List.filter_cons]; simp [hv]

/-- C57.  Flushing a VRF, when no creation or destruction is half done and nobody interferes,
succeeds, removes exactly the policies of that VRF, keeps the order of the others, and releases
every reference it took. -/
theorem flush_exact {n : Nat} {s : St} {A : Abs} (R : Reach n s A)
    (hph : ∀ q ∈ A.db, q.phase = .pub) (hb : ∀ h, A.held h + 4 < 2 ^ 32) (vrf : Nat) :
    ∃ s' A', flush s vrf = some (s', true) ∧ Reach n s' A' ∧
      A'.db = A.db.filter (fun q => q.p.vrf ≠ vrf) ∧ A'.held = A.held := by
  obtain ⟨s1, r1, e1, k1, R1⟩ := policy_calls_exact R (op := .first) (fun h => by
    have := hb h
    generalize (2 : Nat) ^ 32 = M at *
    omega)
  have k1' : r1 = .handle (A.db.head?.map Pol.h) := k1
  subst k1'
  simp only [step, Option.some.injEq, Prod.mk.injEq, Ret.handle.injEq] at e1
  unfold flush
  rw [e1.1, e1.2]
  obtain ⟨I, hn⟩ := reach_inv R
  have hl := db_len I
  unfold St.fuel dbh at hl
  rw [List.length_map] at hl
  obtain ⟨s', A', f1, f2, f3, f4⟩ := flush_loop (vrf := vrf) hb A.db [] s1 _ (s.num + 1) R1 rfl hph
    rfl hl
  exact ⟨s', A', f1, f2, by simpa using f3, f4⟩

/-- Policies of two VRFs, flushed by VRF. -/
example : (exec allowedB [.add ⟨1, .bypass, none, .outb, selAll, 0, 1⟩, .publish 2,
      .add ⟨2, .discard, none, .inb, selAll, 5, 2⟩, .publish 1,
      .add ⟨3, .discard, none, .inb, selUdp, 0, 3⟩, .publish 0, .unref 0] (start 3)).bind
      (fun y => (flush y.1 0).map fun r => (r.2, [r.1.spList, r.1.nx 1, r.1.inL, r.1.outL, r.1.free])) =
    some (true, [some 1, none, some 1, none, some 0]) := by
  decide +kernel

end Verif.Ipsec
