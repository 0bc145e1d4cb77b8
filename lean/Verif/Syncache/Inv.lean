import Verif.Syncache.Round
/-! # Half-open connections: where the entries are -/
namespace Verif.Syncache

theorem bucket_lt (i : Inc) : bucketOf i < 1024 := Nat.mod_lt _ (by decide)

theorem same_bucket {a b : Inc} (h : a.same b = true) : bucketOf a = bucketOf b := by
  unfold Inc.same at h
  simp only [Bool.and_eq_true, decide_eq_true_eq] at h
  unfold bucketOf
  rw [h.1.1.1, h.1.1.2, h.1.2]

theorem find_split {l : List Sc} {inc : Inc} {e : Sc} (h : l.find? (fun e => inc.same e.inc) = some e) :
    ∃ l1 l2, l = l1 ++ e :: l2 ∧ (∀ x ∈ l1, ¬ inc.same x.inc = true) ∧ inc.same e.inc = true ∧
      l.eraseP (fun e => inc.same e.inc) = l1 ++ l2 ∧ ∀ f, updFirst inc f l = l1 ++ f e :: l2 := by
  induction l with
  | nil => cases h
  | cons a l ih =>
    by_cases k : inc.same a.inc = true
    · rw [List.find?_cons_of_pos (by simpa using k)] at h
      cases h
      exact ⟨[], l, rfl, by simp, k, by rw [List.eraseP_cons_of_pos (by simpa using k)]; rfl, fun f => by simp [updFirst, k]⟩
    · rw [List.find?_cons_of_neg (by simpa using k)] at h
      obtain ⟨l1, l2, h1, h2, h3, h4, h5⟩ := ih h
      refine ⟨a :: l1, l2, by rw [h1]; rfl, ?_, h3, ?_, ?_⟩
      · intro x hx
        rcases List.mem_cons.1 hx with m | m
        · rw [m]; exact k
        · exact h2 x m
      · rw [List.eraseP_cons_of_neg (by simpa using k), h4]; rfl
      · intro f; simp only [updFirst]; rw [if_neg k, h5]; rfl

theorem idx_split {l : List Sc} {i : Nat} {a : Sc} (h : l[i]? = some a) : ∃ l1 l2, l = l1 ++ a :: l2 ∧ l.eraseIdx i = l1 ++ l2 := by
  induction l generalizing i with
  | nil => cases h
  | cons x l ih =>
    cases i with
    | zero =>
      simp only [List.getElem?_cons_zero, Option.some.injEq] at h
      rw [h]; exact ⟨[], l, rfl, rfl⟩
    | succ i =>
      obtain ⟨l1, l2, h1, h2⟩ := ih (by simpa using h)
      exact ⟨x :: l1, l2, by rw [h1]; rfl, by rw [List.eraseIdx_cons_succ, h2]; rfl⟩

/-! ## Counting -/

/-- How often a record is in a list of entries. -/
def cntL (i : Nat) (l : List Sc) : Nat := (l.filter fun e => e.id = some i).length

theorem cntL_append (i : Nat) (l1 l2 : List Sc) : cntL i (l1 ++ l2) = cntL i l1 + cntL i l2 := by
  unfold cntL; rw [List.filter_append, List.length_append]

theorem cntL_cons (i : Nat) (e : Sc) (l : List Sc) : cntL i (e :: l) = (if e.id = some i then 1 else 0) + cntL i l := by
  unfold cntL
  by_cases k : e.id = some i
  · rw [List.filter_cons_of_pos (by simpa using k), if_pos k, List.length_cons, Nat.add_comm]
  · rw [List.filter_cons_of_neg (by simpa using k), if_neg k, Nat.zero_add]

theorem cntL_nil (i : Nat) : cntL i [] = 0 := rfl

/-- Sum over the buckets. -/
def tot (n : Nat) (f : Nat → Nat) : Nat := ((List.range n).map f).sum

theorem tot_succ (n : Nat) (f : Nat → Nat) : tot (n + 1) f = tot n f + f n := by
  unfold tot; rw [List.range_succ]; simp

theorem tot_congr {n : Nat} {f g : Nat → Nat} (h : ∀ j < n, f j = g j) : tot n f = tot n g := by
  induction n with
  | zero => rfl
  | succ n ih => rw [tot_succ, tot_succ, ih (fun j hj => h j (by omega)), h n (by omega)]

theorem tot_upd {n : Nat} (f : Nat → Nat) {k : Nat} (hk : k < n) (v : Nat) : tot n (fun j => if j = k then v else f j) + f k = tot n f + v := by
  induction n with
  | zero => omega
  | succ n ih =>
    rw [tot_succ, tot_succ]
    by_cases e : k = n
    · have : tot n (fun j => if j = k then v else f j) = tot n f := tot_congr (fun j hj => by rw [if_neg (by omega)])
      rw [this, if_pos e.symm, e]; omega
    · have := ih (by omega)
      rw [if_neg (by omega)]; omega

/-- How often a record is anywhere: free, in a bucket, with a thread. -/
def cnt (s : S) (i : Nat) : Nat := s.free.count i + cntL i s.flight + tot 1024 fun k => cntL i (s.b k).list

theorem cnt_put (s : S) {k : Nat} (hk : k < 1024) (b : Bucket) (i : Nat) : cnt (s.put k b) i + cntL i (s.b k).list = cnt s i + cntL i b.list := by
  unfold cnt S.put
  have := tot_upd (fun k => cntL i (s.b k).list) hk (cntL i b.list)
  have e : (fun j => cntL i (if j = k then b else s.b j).list) = fun j => if j = k then cntL i b.list else cntL i (s.b j).list := by
    funext j; split <;> rfl
  simp only [e]
  omega

theorem cnt_same {s : S} {k : Nat} (hk : k < 1024) {b : Bucket} {i : Nat} (h : cntL i b.list = cntL i (s.b k).list) : cnt (s.put k b) i = cnt s i := by
  have := cnt_put s hk b i; omega

theorem cnt_less {s : S} {k : Nat} (hk : k < 1024) {b : Bucket} {i d : Nat} (h : cntL i (s.b k).list = cntL i b.list + d) : cnt (s.put k b) i + d = cnt s i := by
  have := cnt_put s hk b i; omega

theorem cnt_more {s : S} {k : Nat} (hk : k < 1024) {b : Bucket} {i d : Nat} (h : cntL i b.list = cntL i (s.b k).list + d) : cnt (s.put k b) i = cnt s i + d := by
  have := cnt_put s hk b i; omega

theorem cnt_zfree (s : S) (id : Option Nat) (i : Nat) : cnt (s.zfree id) i = cnt s i + if id = some i then 1 else 0 := by
  unfold cnt S.zfree
  cases id with
  | none => simp
  | some j =>
    simp only [List.count_cons, Option.some.injEq, beq_iff_eq]
    omega

/-! ## Shape -/

/-- A bucket is in order: the counter is right, it is not over its limit, the entries belong here and come from the zone. -/
structure BOk (k : Nat) (b : Bucket) : Prop where
  len : b.len = b.list.length
  lim : b.list.length ≤ limit
  home : ∀ e ∈ b.list, bucketOf e.inc = k ∧ e.id.isSome = true ∧ e.rxmits = 1

/-- The cache is in order. -/
structure InvA (cfg : Cfg) (s : S) : Prop where
  ok : ∀ k, BOk k (s.b k)
  cnt : ∀ i, cnt s i = if i < cfg.n then 1 else 0
  fl : ∀ e ∈ s.flight, e.rxmits = 0

theorem count_range (n i : Nat) : (List.range n).count i = if i < n then 1 else 0 := by
  induction n with
  | zero => simp
  | succ n ih =>
    rw [List.range_succ, List.count_append, ih, List.count_cons, List.count_nil]
    simp only [beq_iff_eq]
    split <;> split <;> split <;> omega

theorem InvA.init (cfg : Cfg) : InvA cfg (init cfg) := by
  refine ⟨fun k => ⟨rfl, Nat.zero_le _, ?_⟩, ?_, ?_⟩
  · intro e h; cases h
  · intro i
    unfold Verif.Syncache.cnt
    have : tot 1024 (fun k => cntL i ((Verif.Syncache.init cfg).b k).list) = 0 := by
      have : ∀ n, tot n (fun k => cntL i ((Verif.Syncache.init cfg).b k).list) = 0 := by
        intro n
        induction n with
        | zero => rfl
        | succ n ih => rw [tot_succ, ih]; rfl
      exact this _
    rw [this]
    show (List.range cfg.n).count i + 0 + 0 = _
    rw [count_range]; rfl
  · intro e h; cases h

variable {cfg : Cfg} {s : S}

theorem put_b (k : Nat) (b : Bucket) (j : Nat) : (s.put k b).b j = if j = k then b else s.b j := rfl
theorem zfree_b (id : Option Nat) : (s.zfree id).b = s.b := by unfold S.zfree; split <;> rfl
theorem zfree_fl (id : Option Nat) : (s.zfree id).flight = s.flight := by unfold S.zfree; split <;> rfl

theorem ok_put (h : ∀ k, BOk k (s.b k)) {k : Nat} {b : Bucket} (hb : BOk k b) : ∀ j, BOk j ((s.put k b).b j) := by
  intro j; rw [put_b]; split
  · rename_i e; rw [e]; exact hb
  · exact h j

/-- Change the first entry of a connection without moving it. -/
theorem InvA.upd (h : InvA cfg s) {inc : Inc} {sc : Sc} (hl : lookup (s.b (bucketOf inc)) inc = some sc) (f : Sc → Sc)
    (hf : (f sc).id = sc.id ∧ (f sc).inc = sc.inc ∧ (f sc).rxmits = 1) :
    InvA cfg (s.put (bucketOf inc) { s.b (bucketOf inc) with list := updFirst inc f (s.b (bucketOf inc)).list }) := by
  obtain ⟨l1, l2, h1, _, _, _, h5⟩ := find_split hl
  have ok := h.ok (bucketOf inc)
  refine ⟨ok_put h.ok ⟨?_, ?_, ?_⟩, ?_, h.fl⟩
  · simp only [h5]; rw [ok.len, h1]; simp
  · have := ok.lim; simp only [h5]; rw [h1] at this; simpa using this
  · intro e he
    simp only [h5] at he
    rcases List.mem_append.1 he with m | m
    · exact ok.home e (by rw [h1]; exact List.mem_append.2 (.inl m))
    · rcases List.mem_cons.1 m with m | m
      · have := ok.home sc (by rw [h1]; simp)
        rw [m, hf.1, hf.2.1, hf.2.2]; exact ⟨this.1, this.2.1, rfl⟩
      · exact ok.home e (by rw [h1]; simp [m])
  · intro i
    refine (cnt_same (bucket_lt inc) ?_).trans (h.cnt i)
    simp only [h5]
    rw [h1, cntL_append, cntL_append, cntL_cons, cntL_cons, hf.1]

/-- Take the first entry of a connection out and free it. -/
theorem InvA.drop (h : InvA cfg s) {inc : Inc} {sc : Sc} (hl : lookup (s.b (bucketOf inc)) inc = some sc) :
    InvA cfg ((s.put (bucketOf inc) ((s.b (bucketOf inc)).remove inc)).zfree sc.id) := by
  obtain ⟨l1, l2, h1, _, _, h4, _⟩ := find_split hl
  have ok := h.ok (bucketOf inc)
  refine ⟨?_, ?_, ?_⟩
  · rw [zfree_b]
    refine ok_put h.ok ⟨?_, ?_, ?_⟩
    · simp only [Bucket.remove, h4]; rw [ok.len, h1]; simp
    · have := ok.lim; simp only [Bucket.remove, h4]; rw [h1] at this; simp at this ⊢; omega
    · intro e he
      simp only [Bucket.remove, h4] at he
      refine ok.home e ?_
      rw [h1]
      rcases List.mem_append.1 he with m | m
      · exact List.mem_append.2 (.inl m)
      · simp [m]
  · intro i
    rw [cnt_zfree]
    refine (cnt_less (bucket_lt inc) ?_).trans (h.cnt i)
    have e : ((s.b (bucketOf inc)).remove inc).list = l1 ++ l2 := h4
    rw [e, h1, cntL_append, cntL_append, cntL_cons]
    omega
  · rw [zfree_fl]; exact h.fl

theorem getLast_split {l : List Sc} {e : Sc} (h : l.getLast? = some e) : l = l.dropLast ++ [e] := by
  obtain ⟨ys, hy⟩ := List.getLast?_eq_some_iff.1 h
  rw [hy]; simp

/-- Drop the oldest entry of a bucket. -/
theorem InvA.dropLast (h : InvA cfg s) {k : Nat} (hk : k < 1024) : InvA cfg (dropLast s k) := by
  unfold Verif.Syncache.dropLast
  cases hl : (s.b k).list.getLast? with
  | none => exact h
  | some e =>
    have h1 := getLast_split hl
    have ok := h.ok k
    refine ⟨?_, ?_, ?_⟩
    · rw [zfree_b]
      refine ok_put h.ok ⟨?_, ?_, ?_⟩
      · simp only; rw [ok.len]; simp
      · have := ok.lim; simp only [List.length_dropLast]; omega
      · intro x hx
        exact ok.home x (List.dropLast_subset _ hx)
    · intro i
      rw [cnt_zfree]
      refine (cnt_less hk ?_).trans (h.cnt i)
      have : cntL i (s.b k).list = cntL i ((s.b k).list.dropLast ++ [e]) := by rw [← h1]
      rw [this, cntL_append, cntL_cons, cntL_nil, Nat.add_zero]
    · rw [zfree_fl]; exact h.fl

theorem dropLast_flight (s : S) (k : Nat) : (dropLast s k).flight = s.flight := by
  unfold dropLast; split
  · rw [zfree_fl]; rfl
  · rfl

theorem dropLast_room (h : InvA cfg s) {k : Nat} (hl : limit ≤ (s.b k).len) : ((dropLast s k).b k).list.length < limit := by
  have ok := h.ok k
  unfold dropLast
  cases hg : (s.b k).list.getLast? with
  | none =>
    have := List.getLast?_eq_none_iff.1 hg
    have := ok.len
    simp_all [limit]
  | some e =>
    simp only
    rw [zfree_b, put_b, if_pos rfl]
    simp only [List.length_dropLast]
    have := ok.lim
    unfold limit at *
    omega

/-- Insert an entry that a thread has. -/
theorem insert_inv (hok : ∀ k, BOk k (s.b k)) (hfl : ∀ e ∈ s.flight, e.rxmits = 0) {sc : Sc} (hi : sc.id.isSome = true) (hr : sc.rxmits = 0)
    (hc : ∀ i, cnt s i + (if sc.id = some i then 1 else 0) = if i < cfg.n then 1 else 0) : InvA cfg (insert s (bucketOf sc.inc) sc) := by
  have key : ∀ s1 : S, (∀ k, BOk k (s1.b k)) → s1.flight = s.flight → (s1.b (bucketOf sc.inc)).list.length < limit → (∀ i, cnt s1 i = cnt s i) →
      InvA cfg (s1.put (bucketOf sc.inc) { s1.b (bucketOf sc.inc) with list := { sc with rxmits := sc.rxmits + 1 } :: (s1.b (bucketOf sc.inc)).list, len := (s1.b (bucketOf sc.inc)).len + 1 }) := by
    intro s1 h1 h2 h3 h4
    refine ⟨ok_put h1 ⟨?_, ?_, ?_⟩, ?_, ?_⟩
    · simp only [List.length_cons]; rw [(h1 _).len]
    · simp only [List.length_cons]; omega
    · intro e he
      rcases List.mem_cons.1 he with m | m
      · rw [m]; exact ⟨rfl, hi, by simp [hr]⟩
      · exact (h1 _).home e m
    · intro i
      refine (cnt_more (d := if sc.id = some i then 1 else 0) (bucket_lt sc.inc) ?_).trans ?_
      · simp only [cntL_cons]; omega
      · rw [h4 i]; exact hc i
    · show ∀ e ∈ s1.flight, _
      rw [h2]; exact hfl
  unfold insert
  simp only
  by_cases hl : (s.b (bucketOf sc.inc)).len ≥ limit
  · simp only [if_pos hl]
    -- dropping needs the count of `s` itself
    have ok := hok (bucketOf sc.inc)
    cases hg : (s.b (bucketOf sc.inc)).list.getLast? with
    | none =>
      have := List.getLast?_eq_none_iff.1 hg
      have := ok.len
      simp_all [limit]
    | some e =>
      have h1 := getLast_split hg
      have e0 : dropLast s (bucketOf sc.inc) = (s.put (bucketOf sc.inc) { s.b (bucketOf sc.inc) with list := (s.b (bucketOf sc.inc)).list.dropLast, len := (s.b (bucketOf sc.inc)).len - 1 }).zfree e.id := by
        unfold dropLast; rw [hg]
      refine key _ ?_ (dropLast_flight _ _) ?_ ?_
      · rw [e0, zfree_b]
        refine ok_put hok ⟨?_, ?_, ?_⟩
        · simp only; rw [ok.len]; simp
        · have := ok.lim; simp only [List.length_dropLast]; omega
        · intro x hx
          exact ok.home x (List.dropLast_subset _ hx)
      · rw [e0, zfree_b, put_b, if_pos rfl]
        simp only [List.length_dropLast]
        have := ok.lim
        unfold limit at *
        omega
      · intro i
        rw [e0, cnt_zfree]
        refine cnt_less (bucket_lt sc.inc) ?_
        have : cntL i (s.b (bucketOf sc.inc)).list = cntL i ((s.b (bucketOf sc.inc)).list.dropLast ++ [e]) := by rw [← h1]
        rw [this, cntL_append, cntL_cons, cntL_nil, Nat.add_zero]
  · simp only [if_neg hl]
    exact key s hok rfl (by rw [← (hok _).len]; omega) (fun _ => rfl)

theorem fill_id (x : SynIn) (id : Option Nat) : (fill cfg x id).id = id ∧ (fill cfg x id).rxmits = 0 ∧ (fill cfg x id).inc = x.inc ∧ (fill cfg x id).iss = 31415 := ⟨rfl, rfl, rfl, rfl⟩

theorem generate_id (b : Bucket) (mo : Nat) (tick : W) (sc : Sc) : (generate cfg b mo tick sc).id = sc.id ∧ (generate cfg b mo tick sc).rxmits = sc.rxmits ∧ (generate cfg b mo tick sc).inc = sc.inc := by
  rw [generate_rest]; exact ⟨rfl, rfl, rfl⟩

theorem reseed_list (b : Bucket) (now : Nat) (rnd : List Nat) : (reseed b now rnd).list = b.list ∧ (reseed b now rnd).len = b.len := by
  unfold reseed; split
  · split <;> exact ⟨rfl, rfl⟩
  · exact ⟨rfl, rfl⟩

/-- A thread takes a record and fills it in. -/
theorem launch_inv (hok : ∀ k, BOk k (s.b k)) (hfl : ∀ e ∈ s.flight, e.rxmits = 0) (x : SynIn) (id : Option Nat)
    (hc : ∀ i, cnt s i + (if id = some i then 1 else 0) = if i < cfg.n then 1 else 0) : InvA cfg (launch cfg s x id) := by
  unfold launch
  simp only
  split
  · obtain ⟨r1, r2⟩ := reseed_list (s.b (bucketOf x.inc)) x.now x.rnd
    have g := generate_id (cfg := cfg) (reseed (s.b (bucketOf x.inc)) x.now x.rnd) x.mo x.tick (fill cfg x id)
    have ok := hok (bucketOf x.inc)
    refine ⟨?_, ?_, ?_⟩
    · show ∀ j, BOk j ((s.put (bucketOf x.inc) (reseed (s.b (bucketOf x.inc)) x.now x.rnd)).b j)
      exact ok_put hok ⟨by rw [r1, r2]; exact ok.len, by rw [r1]; exact ok.lim, by rw [r1]; exact ok.home⟩
    · intro i
      have c := cnt_put s (bucket_lt x.inc) (reseed (s.b (bucketOf x.inc)) x.now x.rnd) i
      rw [r1] at c
      unfold Verif.Syncache.cnt at c ⊢
      simp only [cntL_append, cntL_cons, cntL_nil, g.1]
      have := hc i
      unfold Verif.Syncache.cnt at this
      have e : (fill cfg x id).id = id := rfl
      have f : (s.put (bucketOf x.inc) (reseed (s.b (bucketOf x.inc)) x.now x.rnd)).flight = s.flight := rfl
      rw [e]; rw [f] at c
      omega
    · intro e he
      rcases List.mem_append.1 he with m | m
      · exact hfl e m
      · rw [List.mem_singleton.1 m, g.2.1]; rfl
  · refine ⟨hok, ?_, ?_⟩
    · intro i
      have := hc i
      unfold Verif.Syncache.cnt at this ⊢
      simp only [cntL_append, cntL_cons, cntL_nil]
      have e : (fill cfg x id).id = id := rfl
      rw [e]
      omega
    · intro e he
      rcases List.mem_append.1 he with m | m
      · exact hfl e m
      · rw [List.mem_singleton.1 m]; rfl

theorem pop_free (h : InvA cfg s) {i : Nat} {r : List Nat} (hf : s.free = i :: r) (j : Nat) :
    cnt { s with free := r } j + (if some i = some j then 1 else 0) = if j < cfg.n then 1 else 0 := by
  rw [← h.cnt j]
  unfold Verif.Syncache.cnt
  rw [hf, List.count_cons]
  simp only [Option.some.injEq, beq_iff_eq]
  omega

/-- Every event keeps the cache in order. -/
theorem step_inv (h : InvA cfg s) (ev : Ev) : InvA cfg (step cfg s ev).2 := by
  cases ev with
  | syn x =>
    unfold step
    simp only
    cases hl : lookup (s.b (bucketOf x.inc)) x.inc with
    | some sc =>
      simp only
      refine h.upd hl _ ?_
      have hd : (dup x.o sc).id = sc.id ∧ (dup x.o sc).inc = sc.inc ∧ (dup x.o sc).rxmits = sc.rxmits := by
        unfold dup; split <;> exact ⟨rfl, rfl, rfl⟩
      have hr : sc.rxmits = 1 := by
        obtain ⟨l1, l2, h1, _⟩ := find_split hl
        exact ((h.ok _).home sc (by rw [h1]; simp)).2.2
      split
      · exact ⟨hd.1, hd.2.1, rfl⟩
      · exact ⟨hd.1, hd.2.1, by rw [hd.2.2, hr]⟩
    | none =>
      simp only
      cases hf : s.free with
      | cons i r => exact launch_inv (s := { s with free := r }) h.ok h.fl x (some i) (pop_free h hf)
      | nil =>
        simp only
        have h1 := h.dropLast (bucket_lt x.inc)
        cases hf1 : (dropLast s (bucketOf x.inc)).free with
        | cons i r => exact launch_inv (s := { dropLast s (bucketOf x.inc) with free := r }) h1.ok h1.fl x (some i) (pop_free h1 hf1)
        | nil =>
          simp only
          split
          · exact launch_inv h1.ok h1.fl x none (fun i => by simpa using h1.cnt i)
          · exact h1
  | send i mo ok =>
    unfold step
    simp only
    cases hg : s.flight[i]? with
    | none => exact h
    | some sc =>
      obtain ⟨l1, l2, e1, e2⟩ := idx_split hg
      have fl1 : ∀ e ∈ s.flight.eraseIdx i, e.rxmits = 0 := fun e he => h.fl e (List.mem_of_mem_eraseIdx he)
      have c : ∀ j, cnt { s with flight := s.flight.eraseIdx i } j + (if sc.id = some j then 1 else 0) = if j < cfg.n then 1 else 0 := by
        intro j
        rw [← h.cnt j]
        unfold Verif.Syncache.cnt
        simp only [e2]
        rw [e1, cntL_append, cntL_append, cntL_cons]
        omega
      have fr : InvA cfg (({ s with flight := s.flight.eraseIdx i } : S).zfree sc.id) := by
        refine ⟨by rw [zfree_b]; exact h.ok, ?_, by rw [zfree_fl]; exact fl1⟩
        intro j; rw [cnt_zfree]; exact c j
      simp only
      split
      · simp only
        split
        · exact fr
        · split
          · rename_i hi
            exact insert_inv (s := { s with flight := s.flight.eraseIdx i }) h.ok fl1 hi (h.fl sc (by rw [e1]; simp)) c
          · rename_i hi
            refine ⟨h.ok, ?_, fl1⟩
            intro j
            have := c j
            have : sc.id = none := by simpa using hi
            have c := c j
            rw [this] at c
            simpa using c
      · exact fr
  | ack x =>
    unfold step
    simp only
    cases hl : lookup (s.b (bucketOf x.inc)) x.inc with
    | none =>
      simp only
      split
      · split <;> exact h
      · exact h
    | some sc => exact h.drop hl
  | rst inc seq bad =>
    unfold step
    simp only
    cases hl : lookup (s.b (bucketOf inc)) inc with
    | none => exact h
    | some sc =>
      simp only
      split
      · exact h.drop hl
      · exact h
  | badack inc =>
    unfold step
    simp only
    cases hl : lookup (s.b (bucketOf inc)) inc with
    | none => exact h
    | some sc => exact h.drop hl
  | unreach inc seq =>
    unfold step
    simp only
    cases hl : lookup (s.b (bucketOf inc)) inc with
    | none => exact h
    | some sc =>
      simp only
      split
      · exact h
      · split
        · refine h.upd hl _ ⟨rfl, rfl, ?_⟩
          obtain ⟨l1, l2, h1, _⟩ := find_split hl
          exact ((h.ok _).home sc (by rw [h1]; simp)).2.2
        · exact h.drop hl

end Verif.Syncache
