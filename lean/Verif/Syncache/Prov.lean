import Verif.Syncache.Inv
import Verif.Syncache.Spec
/-! # Half-open connections: where an entry comes from -/
namespace Verif.Syncache

variable {cfg : Cfg} {s : S}

/-- An entry without what later events change. -/
def core (e : Sc) : Sc := { e with rxmits := 0, tsF := false, tsreflect := 0, unreach := false }

/-- `e` is `e0` after some of those changes: timestamps are only ever given up. -/
def Later (e e0 : Sc) : Prop := core e = core e0 ∧ (e.tsF = true → e0.tsF = true)

theorem Later.refl (e : Sc) : Later e e := ⟨rfl, id⟩
theorem Later.trans {a b c : Sc} (h : Later a b) (h' : Later b c) : Later a c := ⟨h.1.trans h'.1, h'.2 ∘ h.2⟩

theorem later_dup (o : Opts) (e : Sc) : Later (dup o e) e := by
  unfold dup Later core
  split
  · exact ⟨rfl, id⟩
  · exact ⟨rfl, fun h => by cases h⟩

theorem later_dup' (o : Opts) (e : Sc) (n : Nat) : Later { dup o e with rxmits := n } e := ⟨(later_dup o e).1, (later_dup o e).2⟩

theorem lookup_mem {b : Bucket} {inc : Inc} {e : Sc} (h : lookup b inc = some e) : e ∈ b.list ∧ inc.same e.inc = true := by
  obtain ⟨l1, l2, h1, _, h3, _⟩ := find_split h
  exact ⟨by rw [h1]; simp, h3⟩

theorem upd_mem {b : Bucket} {inc : Inc} {sc : Sc} (h : lookup b inc = some sc) (f : Sc → Sc) {e : Sc} (he : e ∈ updFirst inc f b.list) :
    e ∈ b.list ∨ e = f sc := by
  obtain ⟨l1, l2, h1, _, _, _, h5⟩ := find_split h
  rw [h5] at he
  rw [h1]
  rcases List.mem_append.1 he with m | m
  · left; exact List.mem_append.2 (.inl m)
  · rcases List.mem_cons.1 m with m | m
    · exact .inr m
    · left; simp [m]

theorem dropLast_mem {k j : Nat} {e : Sc} (h : e ∈ ((dropLast s k).b j).list) : e ∈ (s.b j).list := by
  unfold dropLast at h
  cases hg : (s.b k).list.getLast? with
  | none => rw [hg] at h; exact h
  | some x =>
    rw [hg] at h
    simp only at h
    rw [zfree_b, put_b] at h
    split at h
    · rename_i e; rw [e]; exact List.dropLast_subset _ h
    · exact h

theorem drop_mem {k j : Nat} {inc : Inc} {id : Option Nat} {e : Sc} (h : e ∈ (((s.put k ((s.b k).remove inc)).zfree id).b j).list) : e ∈ (s.b j).list := by
  rw [zfree_b, put_b] at h
  split at h
  · rename_i e; rw [e]; exact List.mem_of_mem_eraseP h
  · exact h

theorem put_mem {k j : Nat} {b : Bucket} {P : Sc → Prop} (h1 : j = k → ∀ e ∈ b.list, P e) (h2 : ∀ e ∈ (s.b j).list, P e) : ∀ e ∈ ((s.put k b).b j).list, P e := by
  intro e he
  rw [put_b] at he
  split at he
  · rename_i h; exact h1 h e he
  · exact h2 e he

theorem launch_mem {x : SynIn} {id : Option Nat} {j : Nat} : ∀ e ∈ ((launch cfg s x id).b j).list, e ∈ (s.b j).list := by
  unfold launch
  simp only
  split
  · intro e he
    have he : e ∈ ((s.put (bucketOf x.inc) (reseed (s.b (bucketOf x.inc)) x.now x.rnd)).b j).list := he
    rw [put_b] at he
    split at he
    · rename_i h; rw [(reseed_list _ _ _).1] at he; rw [h]; exact he
    · exact he
  · exact fun e he => he

/-- The entry a SYN makes. -/
def made (cfg : Cfg) (b : Bucket) (x : SynIn) (id : Option Nat) : Sc :=
  if cfg.cookies then generate cfg (reseed b x.now x.rnd) x.mo x.tick (fill cfg x id) else fill cfg x id

theorem launch_flight {x : SynIn} {id : Option Nat} : (launch cfg s x id).flight = s.flight ++ [made cfg (s.b (bucketOf x.inc)) x id] := by
  unfold launch made
  simp only
  split <;> rfl

/-- The entries in the buckets after an event: those before, up to what later SYNs and ICMP messages change, and one whose SYN|ACK has
just been sent. -/
theorem step_buckets (ev : Ev) {j : Nat} {e : Sc} (he : e ∈ ((step cfg s ev).2.b j).list) :
    (∃ e0 ∈ (s.b j).list, Later e e0) ∨
    (∃ i mo f, ev = .send i mo true ∧ s.flight[i]? = some f ∧ Later e f ∧ (step cfg s ev).1 = .synack (respond cfg mo f)) := by
  cases ev with
  | syn x =>
    left
    unfold step at he
    simp only at he
    cases hl : lookup (s.b (bucketOf x.inc)) x.inc with
    | some sc =>
      rw [hl] at he
      simp only at he
      rw [put_b] at he
      split at he
      · rename_i hj
        rw [hj]
        rcases upd_mem hl _ he with m | m
        · exact ⟨e, m, .refl e⟩
        · refine ⟨sc, (lookup_mem hl).1, ?_⟩
          rw [m]
          split
          · exact later_dup' x.o sc 1
          · exact later_dup x.o sc
      · exact ⟨e, he, .refl e⟩
    | none =>
      rw [hl] at he
      simp only at he
      cases hf : s.free with
      | cons i r => rw [hf] at he; exact ⟨e, launch_mem (s := { s with free := r }) e he, .refl e⟩
      | nil =>
        rw [hf] at he
        simp only at he
        cases hf1 : (dropLast s (bucketOf x.inc)).free with
        | cons i r =>
          rw [hf1] at he
          exact ⟨e, dropLast_mem (launch_mem (s := { dropLast s (bucketOf x.inc) with free := r }) e he), .refl e⟩
        | nil =>
          rw [hf1] at he
          simp only at he
          split at he
          · exact ⟨e, dropLast_mem (launch_mem e he), .refl e⟩
          · exact ⟨e, dropLast_mem he, .refl e⟩
  | send i mo ok =>
    unfold step at he ⊢
    simp only at he ⊢
    cases hg : s.flight[i]? with
    | none => rw [hg] at he; exact .inl ⟨e, he, .refl e⟩
    | some sc =>
      rw [hg] at he
      simp only at he ⊢
      cases ok with
      | false =>
        left
        simp only [Bool.false_eq_true, if_false] at he
        rw [zfree_b] at he
        exact ⟨e, he, .refl e⟩
      | true =>
        simp only [if_true] at he ⊢
        split at he
        · left; rw [zfree_b] at he; exact ⟨e, he, .refl e⟩
        · split at he
          · unfold insert at he
            simp only at he
            rw [put_b] at he
            have sub : ∀ e ∈ ((if (({ s with flight := s.flight.eraseIdx i } : S).b (bucketOf sc.inc)).len ≥ limit then dropLast { s with flight := s.flight.eraseIdx i } (bucketOf sc.inc)
                else { s with flight := s.flight.eraseIdx i }).b j).list, e ∈ (s.b j).list := by
              intro e he
              split at he
              · exact dropLast_mem (s := { s with flight := s.flight.eraseIdx i }) he
              · exact he
            split at he
            · rename_i hj
              rcases List.mem_cons.1 he with m | m
              · right
                refine ⟨i, mo, sc, rfl, hg, ?_, rfl⟩
                rw [m]; exact ⟨rfl, id⟩
              · left; exact ⟨e, sub e (by rw [hj]; exact m), .refl e⟩
            · left; exact ⟨e, sub e he, .refl e⟩
          · left; exact ⟨e, he, .refl e⟩
  | ack x =>
    left
    unfold step at he
    simp only at he
    cases hl : lookup (s.b (bucketOf x.inc)) x.inc with
    | none =>
      rw [hl] at he
      simp only at he
      split at he
      · split at he <;> exact ⟨e, he, .refl e⟩
      · exact ⟨e, he, .refl e⟩
    | some sc => rw [hl] at he; exact ⟨e, drop_mem he, .refl e⟩
  | rst inc seq bad =>
    left
    unfold step at he
    simp only at he
    cases hl : lookup (s.b (bucketOf inc)) inc with
    | none => rw [hl] at he; exact ⟨e, he, .refl e⟩
    | some sc =>
      rw [hl] at he
      simp only at he
      split at he
      · exact ⟨e, drop_mem he, .refl e⟩
      · exact ⟨e, he, .refl e⟩
  | badack inc =>
    left
    unfold step at he
    simp only at he
    cases hl : lookup (s.b (bucketOf inc)) inc with
    | none => rw [hl] at he; exact ⟨e, he, .refl e⟩
    | some sc => rw [hl] at he; exact ⟨e, drop_mem he, .refl e⟩
  | unreach inc seq =>
    left
    unfold step at he
    simp only at he
    cases hl : lookup (s.b (bucketOf inc)) inc with
    | none => rw [hl] at he; exact ⟨e, he, .refl e⟩
    | some sc =>
      rw [hl] at he
      simp only at he
      split at he
      · exact ⟨e, he, .refl e⟩
      · split at he
        · rw [put_b] at he
          split at he
          · rename_i hj
            rw [hj]
            rcases upd_mem hl _ he with m | m
            · exact ⟨e, m, .refl e⟩
            · exact ⟨sc, (lookup_mem hl).1, by rw [m]; exact ⟨rfl, id⟩⟩
          · exact ⟨e, he, .refl e⟩
        · exact ⟨e, drop_mem he, .refl e⟩

/-- The entries threads have after an event. -/
theorem step_flight (ev : Ev) {f : Sc} (hf : f ∈ (step cfg s ev).2.flight) :
    f ∈ s.flight ∨ ∃ x b id, ev = .syn x ∧ f = made cfg b x id := by
  cases ev with
  | syn x =>
    unfold step at hf
    simp only at hf
    have key : ∀ (s1 : S) (id : Option Nat), s1.flight = s.flight → f ∈ (launch cfg s1 x id).flight → f ∈ s.flight ∨ ∃ y b id, Ev.syn x = .syn y ∧ f = made cfg b y id := by
      intro s1 id h1 h2
      rw [launch_flight, h1] at h2
      rcases List.mem_append.1 h2 with m | m
      · exact .inl m
      · exact .inr ⟨x, _, id, rfl, List.mem_singleton.1 m⟩
    cases hl : lookup (s.b (bucketOf x.inc)) x.inc with
    | some sc => rw [hl] at hf; exact .inl hf
    | none =>
      rw [hl] at hf
      simp only at hf
      cases hfr : s.free with
      | cons i r => rw [hfr] at hf; exact key { s with free := r } _ rfl hf
      | nil =>
        rw [hfr] at hf
        simp only at hf
        cases hf1 : (dropLast s (bucketOf x.inc)).free with
        | cons i r => rw [hf1] at hf; exact key { dropLast s (bucketOf x.inc) with free := r } _ (dropLast_flight _ _) hf
        | nil =>
          rw [hf1] at hf
          simp only at hf
          split at hf
          · exact key _ _ (dropLast_flight _ _) hf
          · left; rw [dropLast_flight] at hf; exact hf
  | send i mo ok =>
    left
    unfold step at hf
    simp only at hf
    cases hg : s.flight[i]? with
    | none => rw [hg] at hf; exact hf
    | some sc =>
      rw [hg] at hf
      simp only at hf
      have e : f ∈ s.flight.eraseIdx i := by
        split at hf
        · simp only at hf
          split at hf
          · rw [zfree_fl] at hf; exact hf
          · split at hf
            · unfold insert at hf
              simp only at hf
              have hf : f ∈ (if _ then dropLast _ _ else _ : S).flight := hf
              split at hf
              · rw [dropLast_flight] at hf; exact hf
              · exact hf
            · exact hf
        · rw [zfree_fl] at hf; exact hf
      exact List.mem_of_mem_eraseIdx e
  | ack x =>
    left
    unfold step at hf
    simp only at hf
    split at hf
    · split at hf
      · split at hf <;> exact hf
      · exact hf
    · simp only at hf; rw [zfree_fl] at hf; exact hf
  | rst inc seq bad =>
    left
    unfold step at hf
    simp only at hf
    split at hf
    · exact hf
    · simp only at hf
      split at hf
      · unfold drop at hf; rw [zfree_fl] at hf; exact hf
      · exact hf
  | badack inc =>
    left
    unfold step at hf
    simp only at hf
    split at hf
    · exact hf
    · simp only at hf; unfold drop at hf; rw [zfree_fl] at hf; exact hf
  | unreach inc seq =>
    left
    unfold step at hf
    simp only at hf
    split at hf
    · exact hf
    · simp only at hf
      split at hf
      · exact hf
      · split at hf
        · exact hf
        · unfold drop at hf; rw [zfree_fl] at hf; exact hf

/-- The entry was made by a SYN of the history. -/
def Prov (cfg : Cfg) (l : Log) (e : Sc) : Prop := ∃ x b id, Synned l x ∧ Later e (made cfg b x id)

/-- The answer was sent. -/
def Told (cfg : Cfg) (l : Log) (e : Sc) : Prop := ∃ f mo, Later e f ∧ Sent l (respond cfg mo f)

theorem Prov.cons {l : Log} {e : Sc} (h : Prov cfg l e) (a : Ev × Out) : Prov cfg (a :: l) e := by
  obtain ⟨x, b, id, ⟨o, h1⟩, h2⟩ := h
  exact ⟨x, b, id, ⟨o, List.mem_cons_of_mem _ h1⟩, h2⟩

theorem Told.cons {l : Log} {e : Sc} (h : Told cfg l e) (a : Ev × Out) : Told cfg (a :: l) e := by
  obtain ⟨f, mo, h1, ⟨ev, h2⟩⟩ := h
  exact ⟨f, mo, h1, ⟨ev, List.mem_cons_of_mem _ h2⟩⟩

theorem Hist.prov {l : Log} (h : Hist cfg l s) : (∀ f ∈ s.flight, Prov cfg l f) ∧ ∀ k, ∀ e ∈ (s.b k).list, Prov cfg l e ∧ Told cfg l e := by
  induction h with
  | nil => exact ⟨fun f hf => (by cases hf), fun k e he => (by cases he)⟩
  | @cons l s ev _ ih =>
    refine ⟨?_, ?_⟩
    · intro f hf
      rcases step_flight ev hf with m | ⟨x, b, id, m1, m2⟩
      · exact (ih.1 f m).cons _
      · exact ⟨x, b, id, ⟨(step cfg s ev).1, by rw [m1]; exact List.mem_cons_self⟩, by rw [m2]; exact .refl _⟩
    · intro k e he
      rcases step_buckets ev he with ⟨e0, m1, m2⟩ | ⟨i, mo, f, m1, m2, m3, m4⟩
      · obtain ⟨⟨x, b, id, p1, p2⟩, ⟨g, mo, q1, q2⟩⟩ := ih.2 k e0 m1
        exact ⟨Prov.cons ⟨x, b, id, p1, m2.trans p2⟩ _, Told.cons ⟨g, mo, m2.trans q1, q2⟩ _⟩
      · obtain ⟨x, b, id, p1, p2⟩ := ih.1 f (List.mem_of_getElem? m2)
        refine ⟨Prov.cons ⟨x, b, id, p1, m3.trans p2⟩ _, ⟨f, mo, m3, ⟨ev, ?_⟩⟩⟩
        rw [m4]; exact List.mem_cons_self

theorem Hist.inv {l : Log} (h : Hist cfg l s) : InvA cfg s := by
  induction h with
  | nil => exact InvA.init cfg
  | cons ev _ ih => exact step_inv ih ev

end Verif.Syncache
