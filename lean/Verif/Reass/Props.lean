import Verif.Reass.Complete2
/-!
# Properties C20, C21, C44, C45, C46 (C19 is in `Sound.lean`)
-/
namespace Verif.Reass

/-- **C20.** From any reachable state without a queue for `k`: if the pieces of a cut of `D` (2 to 17 pieces; 17 is the
limit plus one the code's comment promises) arrive in any order, interleaved with any other packets, before the timeout
(fewer ticks than the smallest initial queue TTL, 15, and than whatever TTL value the headroom of a piece contains, see
C45) and without exhausting the queue counter, then nothing is delivered for `k` before the last piece, the last piece
delivers exactly `D` with the header of the first piece, and no queue remains. -/
theorem reassembly_completes (hist : List Op) (k : Key) (D : List UInt8) (ps : List Pkt) (pre : List Op) (last : Pkt)
    (hcut : CutFrom k 0 D ps) (h2 : 2 ≤ ps.length) (h17 : ps.length ≤ 17)
    (hfit : ∀ p ∈ ps, 20 + p.opts.length + D.length ≤ 65535)
    (hperm : (ofKey k (pkts pre) ++ [last]).Perm ps)
    (hnoq : NoQueue (run init hist).1 k)
    (hroom : last.room = true ∧ ∀ p ∈ pkts pre, p.room = true)
    (hnip : (run init hist).1.nipq + (pkts pre).length ≤ maxnipq)
    (ht : ticks pre < 15) (hjunk : ∀ p ∈ ps, ticks pre < p.junk.toNat) :
    let s := (run (run init hist).1 pre).1
    (∀ d ∈ delivered (run (run init hist).1 pre).2, d.key ≠ k) ∧
    (∃ f0 ∈ ps, f0.off = 0 ∧
      (reass s last).2 = .pkt ⟨k, f0.opts, f0.ttl, 20 + f0.opts.length + D.length, D⟩) ∧
    NoQueue (reass s last).1 k := by
  intro s
  have w0 := run_wf hist init init_wf
  have pl0 := run_placed hist init init_wf (by intro i c hc; simp [init] at hc)
  have S : Setting k D ps := ⟨hcut, h17, hfit⟩
  obtain ⟨i1, i2, i3⟩ := run_partial S (ticks pre + 1) (by omega) (fun p hp => hjunk p hp) pre (run init hist).1 []
    [last] w0 (by simpa using hperm) (by simp) hroom.2 (by omega) 0 (by omega) ((noQueue_iff pl0 k).1 hnoq)
  have w := run_wf pre _ w0
  have hlk : last.key = k := ((cut_facts hcut).1 last (hperm.subset (by simp))).1
  have hn : s.nipq ≤ maxnipq := by show (run (run init hist).1 pre).1.nipq ≤ _; omega
  obtain ⟨_, e1, e2, _, _⟩ := reass_local w hn hroom.1
  have hla := (local_arrival S (p := last) rfl (R := (ofKey k (pkts pre)).reverse ++ []) (rest := []) (t := 0)
    (oc := chainOf s k) (by
      refine List.Perm.trans ?_ hperm
      refine List.Perm.trans ?_ (List.perm_append_comm (l₁ := [last]))
      simp only [List.append_nil, List.singleton_append]
      exact (List.reverse_perm _).cons _) (by omega) (by have := hjunk last (hperm.subset (by simp)); omega) i1).2 rfl (by
      have := hperm.length_eq
      simp only [List.length_append, List.length_singleton] at this
      intro h0
      have h0 := congrArg List.length h0
      simp at h0
      have : (ofKey k (pkts pre)).length = 0 := by rw [h0]; rfl
      omega)
  rw [hlk] at e1 e2
  refine ⟨i2, ?_, ?_⟩
  · obtain ⟨f0, hf, h0, h1⟩ := hla.2
    exact ⟨f0, hf, h0, by rw [e2]; exact h1⟩
  · rw [noQueue_iff (reass_placed w (run_placed pre _ w0 pl0) last), e1]
    exact hla.1

/-- The pieces of the demonstration payload. -/
def piece1 : Pkt := { key := demoKey, off := 0, mf := true, data := [0, 1, 2, 3, 4, 5, 6, 7], opts := [1, 1, 1, 0], junk := 40 }
def piece2 : Pkt := { key := demoKey, off := 1, mf := true, data := [8, 9, 10, 11, 12, 13, 14, 15], junk := 41 }
def piece3 : Pkt := { key := demoKey, off := 2, mf := false, data := [16, 17, 18, 19], junk := 42 }
-- Non-vacuity: all hypotheses are met by three pieces arriving as 3, 2, 1 with another datagram and ticks in between.
example : CutFrom demoKey 0 demoD [piece1, piece2, piece3] :=
  ⟨rfl, rfl, rfl, rfl, by simp [piece1], _, rfl, rfl, rfl, rfl, rfl, by simp [piece2], _, rfl, rfl, rfl, rfl, rfl, by simp⟩
example :
    let pre : List Op := [.recv piece3, .tick, .recv { key := { demoKey with id := 9 }, off := 4, mf := false, data := [1] },
      .recv piece2, .tick]
    (ofKey demoKey (pkts pre) ++ [piece1]).Perm [piece1, piece2, piece3] ∧ ticks pre = 2 ∧
    NoQueue (run init []).1 demoKey ∧ (run init []).1.nipq + (pkts pre).length ≤ maxnipq := by
  refine ⟨?_, rfl, by intro i c hc; simp [run, init] at hc, by decide⟩
  show [piece3, piece2, piece1].Perm _
  exact (List.reverse_perm [piece1, piece2, piece3])

/-! ## C47: repeated pieces -/

/-- Same bytes on the wire: header and data. -/
def SamePkt (q p : Pkt) : Prop :=
  q.key = p.key ∧ q.opts = p.opts ∧ q.ttl = p.ttl ∧ q.off = p.off ∧ q.mf = p.mf ∧ q.data = p.data

theorem samePkt_frag {q p : Pkt} : SamePkt q p → q.frag = p.frag := by
  rintro ⟨a, b, c, d, e, f⟩
  unfold Pkt.frag
  rw [a, b, c, d, e, f]

/-- **C47, what is true.** As `reassembly_completes`, but any piece may also arrive any number of times: the packets of
`k` received so far are copies of pieces, every piece but one has been seen, and when that one comes `D` is delivered —
not earlier. -/
theorem reassembly_duplicates_partial (hist : List Op) (k : Key) (D : List UInt8) (ps : List Pkt) (pre : List Op)
    (last last0 : Pkt)
    (hcut : CutFrom k 0 D ps) (h2 : 2 ≤ ps.length) (h17 : ps.length ≤ 17)
    (hfit : ∀ p ∈ ps, 20 + p.opts.length + D.length ≤ 65535)
    (hl0 : last0 ∈ ps) (hlast : SamePkt last last0)
    (hcopies : ∀ q ∈ ofKey k (pkts pre), ∃ p ∈ ps, SamePkt q p ∧ p.off ≠ last0.off)
    (hall : ∀ p ∈ ps, p.off ≠ last0.off → ∃ q ∈ ofKey k (pkts pre), SamePkt q p)
    (hnoq : NoQueue (run init hist).1 k)
    (hroom : last.room = true ∧ ∀ p ∈ pkts pre, p.room = true)
    (hnip : (run init hist).1.nipq + (pkts pre).length ≤ maxnipq)
    (ht : ticks pre < 15) (hjunk : ∀ q ∈ last :: ofKey k (pkts pre), ticks pre < q.junk.toNat) :
    let s := (run (run init hist).1 pre).1
    (∀ d ∈ delivered (run (run init hist).1 pre).2, d.key ≠ k) ∧
    (∃ f0 ∈ ps, f0.off = 0 ∧
      (reass s last).2 = .pkt ⟨k, f0.opts, f0.ttl, 20 + f0.opts.length + D.length, D⟩) ∧
    NoQueue (reass s last).1 k := by
  intro s
  have w0 := run_wf hist init init_wf
  have pl0 := run_placed hist init init_wf (by intro i c hc; simp [init] at hc)
  have S : Setting k D ps := ⟨hcut, h17, hfit⟩
  obtain ⟨F1, F2, _⟩ := cut_facts hcut
  have hnd : (ps.map Pkt.frag).Pairwise (fun a b => a.off ≠ b.off) := by
    have h : ∀ l : List Frag, (∀ f ∈ l, f.data ≠ []) → Sorted l → l.Pairwise (fun a b => a.off ≠ b.off) := by
      intro l
      induction l with
      | nil => intros; simp
      | cons a l ih =>
        intro h1 h2
        have h2' := List.pairwise_cons.1 h2
        refine List.pairwise_cons.2 ⟨fun b hb => ?_, ih (fun f hf => h1 f (List.mem_cons_of_mem _ hf)) h2'.2⟩
        have hb := h2'.1 b hb
        have := List.length_pos_iff.2 (h1 a (List.mem_cons_self ..))
        unfold Before Frag.end' at hb
        omega
    refine h _ ?_ F2
    intro f hf
    obtain ⟨x, hx, rfl⟩ := List.mem_map.1 hf
    exact (F1 x hx).2.1
  obtain ⟨⟨R', rest', hp', hl', hH, _, hrec⟩, i2, i3⟩ := run_dups S (ticks pre + 1) (by omega) last0 pre (run init hist).1 []
    ps w0 (by simp) hl0 (by
      intro q hq
      obtain ⟨p, hp, hs, hne⟩ := hcopies q hq
      refine ⟨hjunk q (List.mem_cons_of_mem _ hq), ?_, ?_⟩
      · rw [samePkt_frag hs]; exact List.mem_map_of_mem hp
      · intro he
        rw [samePkt_frag hs] at he
        have : p.off * 8 = last0.off * 8 := congrArg Frag.off he
        omega)
    hroom.2 (by omega) 0 (by omega) ((noQueue_iff pl0 k).1 hnoq)
  -- only the last piece is missing
  have hnd' : ((R' ++ rest').map Pkt.frag).Pairwise (fun a b => a.off ≠ b.off) :=
    ((hp'.map Pkt.frag).pairwise_iff (fun {a b} (hab : a.off ≠ b.off) => Ne.symm hab)).2 hnd
  rw [List.map_append, List.pairwise_append] at hnd'
  have hrest1 : ∀ x ∈ rest', x.off = last0.off := by
    intro x hx
    by_cases hxo : x.off = last0.off
    · exact hxo
    · exfalso
      obtain ⟨q, hq, hs⟩ := hall x (hp'.subset (List.mem_append_right _ hx)) hxo
      have h1 := hrec q hq
      exact hnd'.2.2 _ h1 _ (List.mem_map_of_mem hx) (congrArg Frag.off (samePkt_frag hs))
  have hrest : rest' = [last0] := by
    cases rest' with
    | nil => cases hl'
    | cons a t =>
      cases t with
      | nil =>
        have := List.mem_singleton.1 hl'
        rw [this]
      | cons b t =>
        exfalso
        have h1 := hrest1 a (by simp)
        have h2 := hrest1 b (by simp)
        have := (List.pairwise_cons.1 hnd'.2.1).1 b.frag (by simp)
        apply this
        show a.off * 8 = b.off * 8
        rw [h1, h2]
  subst hrest
  have w := run_wf pre _ w0
  have hlk : last.key = k := hlast.1.trans (F1 last0 hl0).1
  have hn : s.nipq ≤ maxnipq := by show (run (run init hist).1 pre).1.nipq ≤ _; omega
  obtain ⟨_, e1, e2, _, _⟩ := reass_local w hn hroom.1
  have hla := (local_arrival S (p := last) (p0 := last0) (samePkt_frag hlast) (R := R') (rest := []) (t := 0)
    (oc := chainOf s k) (by
      refine List.Perm.trans ?_ hp'
      simpa using (List.perm_append_comm (l₁ := [last0]) (l₂ := R'))) (by omega)
      (by have := hjunk last (List.mem_cons_self ..); omega) hH).2 rfl (by
      intro h0
      subst h0
      have := hp'.length_eq
      simp at this
      omega)
  rw [hlk] at e1 e2
  refine ⟨i2, ?_, ?_⟩
  · obtain ⟨f0, hf, h0, h1⟩ := hla.2
    exact ⟨f0, hf, h0, by rw [e2]; exact h1⟩
  · rw [noQueue_iff (reass_placed w (run_placed pre _ w0 pl0) last), e1]
    exact hla.1

-- Non-vacuity: pieces 3, 1, 3, 1 arrived; 2 is missing, then comes.
example : let pre : List Op := [.recv piece3, .recv piece1, .recv { piece3 with junk := 77 }, .recv piece1]
    (∀ q ∈ ofKey demoKey (pkts pre), ∃ p ∈ [piece1, piece2, piece3], SamePkt q p ∧ p.off ≠ piece2.off) ∧
    (reass (run init pre).1 piece2).2 = .pkt ⟨demoKey, piece1.opts, 64, 44, demoD⟩ := by
  refine ⟨?_, by decide +kernel⟩
  intro q hq
  have hq : q ∈ [piece3, piece1, { piece3 with junk := 77 }, piece1] := hq
  simp only [List.mem_cons, List.not_mem_nil, or_false] at hq
  rcases hq with rfl | rfl | rfl | rfl
  · exact ⟨piece3, by simp, ⟨rfl, rfl, rfl, rfl, rfl, rfl⟩, by decide⟩
  · exact ⟨piece1, by simp, ⟨rfl, rfl, rfl, rfl, rfl, rfl⟩, by decide⟩
  · exact ⟨piece3, by simp, ⟨rfl, rfl, rfl, rfl, rfl, rfl⟩, by decide⟩
  · exact ⟨piece1, by simp, ⟨rfl, rfl, rfl, rfl, rfl, rfl⟩, by decide⟩

/-- **C47 is violated for overlapping fragments.** Three fragments that are all pieces of one 20-byte payload and cover
it completely arrive in order, the last one overlapping the second; nothing is delivered, because a fragment appended at
the end is not trimmed against its predecessor. -/
theorem reassembly_overlap_violated :
    ∃ (D : List UInt8) (p1 p2 p3 : Pkt), IsFragOf D p1 ∧ IsFragOf D p2 ∧ IsFragOf D p3 ∧
      p1.key = p2.key ∧ p1.key = p3.key ∧
      (∀ i < D.length, ∃ p ∈ [p1, p2, p3], p.off * 8 ≤ i ∧ i < p.off * 8 + p.data.length) ∧
      (∃ p ∈ [p1, p2, p3], p.mf = false) ∧
      delivered (run init [.recv p1, .recv p2, .recv p3]).2 = [] :=
  ⟨demoD ++ [20, 21, 22, 23, 24, 25], piece1,
    { key := demoKey, off := 1, mf := true, data := [8, 9, 10, 11, 12, 13, 14, 15, 16, 17, 18, 19, 20, 21, 22, 23] },
    { key := demoKey, off := 2, mf := false, data := [16, 17, 18, 19, 20, 21, 22, 23, 24, 25] },
    by decide +kernel, by decide +kernel, by decide +kernel, rfl, rfl, by decide +kernel,
    ⟨_, by simp; exact Or.inr (Or.inr rfl), rfl⟩, by decide +kernel⟩

/-! ## C21 -/

/-- Number of queues in the 64 buckets. -/
def queues (s : St) : Nat := ((List.range 64).map (fun i => (s.ipq i).length)).sum

/-- `n` timer ticks. -/
def nticks (n : Nat) : List Op := List.replicate n .tick

theorem stuck_forever (s : St) (h : s.nipq > maxnipq) : ∀ ops, delivered (run s ops).2 = [] ∧ (run s ops).1.nipq = s.nipq := by
  intro ops
  induction ops generalizing s with
  | nil => simp [run, delivered]
  | cons o ops ih =>
    cases o with
    | tick =>
      have := ih (tick s) h
      exact this
    | recv p =>
      have he : reass s p = (s, .unlockUnheld) := by unfold reass; rw [if_pos h]
      have := ih s h
      show delivered ((reass s p).2 :: (run (reass s p).1 ops).2) = [] ∧ (run (reass s p).1 ops).1.nipq = _
      rw [he]
      exact this

/-- The first fragment of a datagram whose rest never comes. -/
def lonely : Pkt := { key := demoKey, off := 0, mf := true, data := [0, 1, 2, 3, 4, 5, 6, 7], ttl := 15 }

/-- One incomplete datagram that times out. -/
def lostOne : List Op := .recv lonely :: nticks 15

theorem run_append (s : St) (a b : List Op) : (run s (a ++ b)).1 = (run (run s a).1 b).1 := by
  induction a generalizing s with
  | nil => rfl
  | cons o a ih => exact ih (step s o).1

theorem run_cons (s : St) (o : Op) (l : List Op) : (run s (o :: l)).1 = (run (step s o).1 l).1 := rfl
theorem nticks_succ (n : Nat) : nticks (n + 1) = .tick :: nticks n := rfl

theorem lostOne_run (n : Int) (hn : n ≤ maxnipq) : (run ⟨n, fun _ => []⟩ lostOne).1 = ⟨n + 1, fun _ => []⟩ := by
  have h1 : (reass ⟨n, fun _ => []⟩ lonely).1 =
      ⟨n + 1, fun i => if i = hash demoKey then [⟨[lonely.frag], 1, 15⟩] else []⟩ := by
    unfold reass
    rw [if_neg (by show ¬ n > maxnipq; omega)]
    rfl
  have h2 : ∀ (m : Nat) (q : UInt8), q.toNat = m + 1 → (run ⟨n + 1, fun i => if i = hash demoKey then
      [⟨[lonely.frag], 1, q⟩] else []⟩ (nticks (m + 1))).1 = ⟨n + 1, fun _ => []⟩ := by
    intro m
    have hemp : ∀ m, (run ⟨n + 1, fun _ => []⟩ (nticks m)).1 = ⟨n + 1, fun _ => []⟩ := by
      intro m
      induction m with
      | zero => rfl
      | succ m ih => exact ih
    induction m with
    | zero =>
      intro q hq
      have hq : q = 1 := UInt8.toNat_inj.1 hq
      subst hq
      show (⟨n + 1, _⟩ : St) = _
      congr 1
      funext i
      by_cases hi : i = hash demoKey
      · simp [hi, ageChain]
      · simp [hi]
    | succ m ih =>
      intro q hq
      have e : (q - 1).toNat = m + 1 := by
        rw [UInt8.toNat_sub_of_le _ _ (UInt8.le_iff_toNat_le.2 (by show 1 ≤ _; omega)), hq]
        rfl
      rw [← ih (q - 1) e]
      show (run (tick _) (nticks (m + 1))).1 = _
      congr 2
      show (⟨n + 1, _⟩ : St) = _
      congr 1
      funext i
      by_cases hi : i = hash demoKey
      · have hne : q - 1 ≠ 0 := by
          intro h0
          rw [h0] at e
          have : (0 : Nat) = m + 1 := e
          omega
        simp [hi, ageChain, hne]
      · simp [hi]
  have h3 : (run ⟨n, fun _ => []⟩ lostOne).1 = (run (reass ⟨n, fun _ => []⟩ lonely).1 (nticks (14 + 1))).1 := by
    unfold lostOne
    exact run_cons _ _ _
  rw [h3, h1]
  exact h2 14 15 rfl

/-- `n` datagrams, one after the other, each incomplete and timed out. -/
def lostMany : Nat → List Op
  | 0 => []
  | n + 1 => lostMany n ++ lostOne

/-- **C21 is violated.** After 1025 incomplete datagrams, each of which timed out before the next one came, there is no
queue at all, yet the counter says 1025, and whatever is received from then on, nothing is ever reassembled again. -/
theorem reassembly_survives_violated :
    queues (run init (lostMany 1025)).1 = 0 ∧ (run init (lostMany 1025)).1.nipq = 1025 ∧
    ∀ ops, delivered (run (run init (lostMany 1025)).1 ops).2 = [] := by
  have h : ∀ n : Nat, n ≤ 1025 → (run init (lostMany n)).1 = ⟨n, fun _ => []⟩ := by
    intro n
    induction n with
    | zero => intro _; rfl
    | succ n ih =>
      intro hn
      show (run init (lostMany n ++ lostOne)).1 = _
      rw [run_append, ih (by omega), lostOne_run n (by show (n : Int) ≤ 1024; omega)]
      rfl
  rw [h 1025 (by omega)]
  refine ⟨?_, rfl, fun ops => (stuck_forever _ (by decide) ops).1⟩
  unfold queues
  decide

theorem hash_lt (k : Key) : hash k < 64 := by
  unfold hash
  exact Nat.lt_of_le_of_lt Nat.and_le_right (by decide)

theorem replace_length (k : Key) (o : Option Chain) (l : List Chain) (c : Chain) (h : findChain k l = some c) :
    (replace k o l).length + 1 = l.length + (if o = none then 0 else 1) := by
  induction l with
  | nil => simp [findChain] at h
  | cons a l ih =>
    unfold replace
    split
    · cases o <;> simp
    · next hak =>
      unfold findChain at h ih
      rw [List.find?_cons_of_neg (by simpa using hak)] at h
      have := ih h
      simp only [List.length_cons]
      omega

theorem sum_range_set (f g : Nat → Nat) (j n : Nat) (hj : j < n) (h : ∀ i, i ≠ j → g i = f i) :
    ((List.range n).map g).sum + f j = ((List.range n).map f).sum + g j := by
  induction n with
  | zero => omega
  | succ n ih =>
    simp only [List.range_succ, List.map_append, List.sum_append, List.map_cons, List.map_nil, List.sum_cons,
      List.sum_nil]
    by_cases hjn : j = n
    · subst hjn
      have : (List.range j).map g = (List.range j).map f :=
        List.map_congr_left (fun i hi => h i (by have := List.mem_range.1 hi; omega))
      rw [this]; omega
    · have := ih (by omega)
      have := h n (Ne.symm hjn)
      omega

theorem queues_setBucket (s : St) (k : Key) (l : List Chain) (dn : Int) :
    queues (setBucket s k l dn) + (s.ipq (hash k)).length = queues s + l.length := by
  unfold queues
  have := sum_range_set (fun i => (s.ipq i).length) (fun i => ((setBucket s k l dn).ipq i).length) (hash k) 64 (hash_lt k)
    (fun i hi => by simp [setBucket, hi])
  rw [setBucket_same] at this
  exact this

theorem queues_tick (s : St) : queues (tick s) ≤ queues s := by
  unfold queues
  have : ∀ l : List Nat, (l.map (fun i => ((tick s).ipq i).length)).sum ≤ (l.map (fun i => (s.ipq i).length)).sum := by
    intro l
    induction l with
    | nil => simp
    | cons a l ih =>
      simp only [List.map_cons, List.sum_cons]
      have : ((tick s).ipq a).length ≤ (s.ipq a).length := List.length_filterMap_le _ _
      omega
  exact this _

/-- **C21, what is true.** The counter never falls below the number of queues, so there are never more than 1025. -/
theorem queue_count_partial (ops : List Op) :
    (queues (run init ops).1 : Int) ≤ (run init ops).1.nipq ∧ (run init ops).1.nipq ≤ 1025 := by
  have main : ∀ (ops : List Op) (s : St), (queues s : Int) ≤ s.nipq ∧ s.nipq ≤ 1025 →
      (queues (run s ops).1 : Int) ≤ (run s ops).1.nipq ∧ (run s ops).1.nipq ≤ 1025 := by
    intro ops
    induction ops with
    | nil => intro s h; exact h
    | cons o ops ih =>
      intro s h
      apply ih
      cases o with
      | tick =>
        have := queues_tick s
        refine ⟨?_, h.2⟩
        show (queues (tick s) : Int) ≤ s.nipq
        omega
      | recv p =>
        show (queues (reass s p).1 : Int) ≤ (reass s p).1.nipq ∧ (reass s p).1.nipq ≤ 1025
        unfold reass
        split
        · exact h
        · next hn =>
          have hn : s.nipq ≤ 1024 := by unfold maxnipq at hn; omega
          split
          · exact h
          · simp only
            split
            · split
              · exact h
              · have := queues_setBucket s p.key (⟨[p.frag], 1, if p.ttl < 15 then 15 else p.ttl⟩ :: s.ipq (hash p.key)) 1
                simp only [List.length_cons] at this
                refine ⟨?_, ?_⟩
                · show (queues (setBucket s p.key (⟨[p.frag], 1, if p.ttl < 15 then 15 else p.ttl⟩ :: s.ipq (hash p.key)) 1) : Int)
                    ≤ s.nipq + 1
                  omega
                · show s.nipq + 1 ≤ 1025
                  omega
            · next c hf =>
              have key : ∀ (o : Option Chain) (dn : Int), dn ≤ 0 → (o ≠ none → dn = 0) → (o = none → -1 ≤ dn) →
                  (queues (setBucket s p.key (replace p.key o (s.ipq (hash p.key))) dn) : Int) ≤
                    (setBucket s p.key (replace p.key o (s.ipq (hash p.key))) dn).nipq ∧
                  (setBucket s p.key (replace p.key o (s.ipq (hash p.key))) dn).nipq ≤ 1025 := by
                intro o dn h0 h1 h2
                have a := queues_setBucket s p.key (replace p.key o (s.ipq (hash p.key))) dn
                have b := replace_length p.key o _ c hf
                show (queues _ : Int) ≤ s.nipq + dn ∧ s.nipq + dn ≤ 1025
                cases o with
                | none =>
                  have := h2 rfl
                  rw [if_pos rfl] at b
                  omega
                | some x =>
                  have := h1 (by simp)
                  rw [if_neg (by simp)] at b
                  omega
              split
              · exact key _ 0 (by omega) (fun _ => rfl) (by simp)
              · split
                · exact key _ 0 (by omega) (fun _ => rfl) (by simp)
                · split
                  · exact key _ 0 (by omega) (fun _ => rfl) (by simp)
                  · exact key _ 0 (by omega) (fun _ => rfl) (by omega)
                  · exact key _ (-1) (by omega) (fun h => absurd rfl h) (by omega)
  exact main ops init (by decide)

/-! ## C44: fragments stored per datagram -/

theorem trimAfter_count : ∀ (l : List Frag) (p : Frag), (trimAfter p l).1.length + (trimAfter p l).2 = l.length := by
  intro l
  induction l with
  | nil => intro p; rfl
  | cons f l ih =>
    intro p
    unfold trimAfter
    split
    · split
      · have := ih p
        simp only [List.length_cons]; omega
      · have := ih (f.trim (p.end' - f.off))
        simp only [List.length_cons]; omega
    · have := ih f
      simp only [List.length_cons]; omega

theorem sub_ofNat {n : UInt8} {a b : Nat} (h : n.toNat = a) (hb : b ≤ a) : (n - UInt8.ofNat b).toNat = a - b := by
  have h256 := n.toNat_lt
  have : (UInt8.ofNat b).toNat = b := by
    rw [UInt8.toNat_ofNat']; exact Nat.mod_eq_of_lt (by omega)
  rw [UInt8.toNat_sub_of_le _ _ (UInt8.le_iff_toNat_le.2 (by omega)), h, this]

theorem insert_count {c c' : Chain} {p : Frag} {t j : UInt8} (h : c.nfrags.toNat = c.frags.length)
    (hlt : c.frags.length < 255) (hi : insert c p t j = some c') : c'.nfrags.toNat = c'.frags.length := by
  have happ := congrArg List.length (split_append p.off c.frags)
  rw [List.length_append] at happ
  have hn1 : (c.nfrags + 1).toNat = c.frags.length + 1 := by
    rw [UInt8.toNat_add, h]
    show (_ + 1) % 256 = _
    omega
  unfold insert at hi
  simp only at hi
  split at hi
  · next he =>
    cases hi
    rw [he] at happ
    simp only [List.length_append, List.length_nil, List.length_singleton, Nat.add_zero] at happ ⊢
    rw [hn1, happ]
  · next f l he =>
    have hc := fun q => trimAfter_count (f :: l) q
    rw [he] at happ
    split at hi
    · next hg =>
      have h0 : (split p.off c.frags).1 = [] := List.getLast?_eq_none_iff.1 hg
      cases hi
      have := hc p
      rw [h0] at happ
      simp only [List.length_cons, List.length_nil] at happ this ⊢
      rw [sub_ofNat hn1 (by omega)]
      omega
    · split at hi
      · split at hi
        · cases hi
        · next prev _ _ _ =>
          cases hi
          have := hc (p.trim (prev.end' - p.off))
          simp only [List.length_cons, List.length_append] at happ this ⊢
          rw [sub_ofNat hn1 (by omega)]
          omega
      · cases hi
        have := hc p
        simp only [List.length_cons, List.length_append] at happ this ⊢
        rw [sub_ofNat hn1 (by omega)]
        omega

theorem check_keep {c : Chain} {h : Nat} (hk : check c h = .keep) : c.nfrags.toNat ≤ maxfrags := by
  by_cases hl : c.nfrags.toNat > maxfrags
  · exfalso
    unfold check at hk
    simp only [if_pos hl] at hk
    split at hk
    · cases hk
    · cases hk
    · split at hk
      · cases hk
      · split at hk <;> cases hk
  · omega

/-- **C44, what is true.** As long as no fragment with a malformed length (MF set and a length that is zero or not a
multiple of 8) is received, no datagram ever has more than 16 fragments stored. -/
theorem stored_fragments_partial (ops : List Op) (hm : ∀ p ∈ pkts ops, malformed p = false) :
    ∀ i, ∀ c ∈ (run init ops).1.ipq i, c.frags.length ≤ 16 := by
  have main : ∀ (ops : List Op) (s : St), (∀ p ∈ pkts ops, malformed p = false) →
      (∀ i, ∀ c ∈ s.ipq i, c.nfrags.toNat = c.frags.length ∧ c.frags.length ≤ 16) →
      ∀ i, ∀ c ∈ (run s ops).1.ipq i, c.nfrags.toNat = c.frags.length ∧ c.frags.length ≤ 16 := by
    intro ops
    induction ops with
    | nil => intro s _ h; exact h
    | cons o ops ih =>
      intro s hm h
      cases o with
      | tick =>
        refine ih (tick s) hm (tick_sound (Q := fun c => c.nfrags.toNat = c.frags.length ∧ c.frags.length ≤ 16) ?_ h)
        intro c c' ha hc
        obtain ⟨e1, e2⟩ := ageChain_frags ha
        rw [e1, e2]; exact hc
      | recv p =>
        have hmp := hm p (List.mem_cons_self ..)
        refine ih (reass s p).1 (fun q hq => hm q (List.mem_cons_of_mem _ hq)) ?_
        refine reass_chains (fun c => c.nfrags.toNat = c.frags.length ∧ c.frags.length ≤ 16) s p h ?_ ?_ ?_ ?_
        · intro _; exact ⟨rfl, by simp⟩
        · intro c _ _ h1; rw [hmp] at h1; cases h1
        · intro c hc _ _
          refine ⟨?_, hc.2⟩
          show (c.nfrags + 1 - 1).toNat = c.frags.length
          rw [UInt8.add_sub_cancel]; exact hc.1
        · intro c c' hc _ _ hi hk
          have e := insert_count hc.1 (by omega) hi
          have := check_keep hk
          unfold maxfrags at this
          exact ⟨e, by omega⟩
  intro i c hc
  exact (main ops init hm (by intro i c hc; simp [init] at hc) i c hc).2

/-- A fragment leaving a gap before it, and a malformed one, alternately. -/
def flood : Nat → List Op
  | 0 => []
  | n + 1 => flood n ++ [.recv { key := demoKey, off := 2 * n + 2, mf := true, data := [0, 1, 2, 3, 4, 5, 6, 7] },
      .recv { key := demoKey, off := 0, mf := true, data := [0, 1, 2] }]

/-- **C44 is violated.** Each malformed fragment lowers the count without having raised it, so 20 (and any number of)
fragments of one datagram stay stored. -/
theorem stored_fragments_violated :
    ∃ ops, ∃ c ∈ (run init ops).1.ipq (hash demoKey), c.frags.length = 20 := by
  refine ⟨flood 20, ?_⟩
  have h : ((run init (flood 20)).1.ipq (hash demoKey)).map (fun c => c.frags.length) = [20] := by decide +kernel
  cases hl : (run init (flood 20)).1.ipq (hash demoKey) with
  | nil => rw [hl] at h; cases h
  | cons c l =>
    rw [hl] at h
    simp only [List.map_cons, List.cons.injEq] at h
    exact ⟨c, List.mem_cons_self .., h.1⟩

-- Non-vacuity of `stored_fragments_partial`: 16 fragments are really stored, the 17th makes the queue disappear.
example : let f := fun n : Nat => (List.range n).map (fun i => Op.recv
      { key := demoKey, off := 2 * i + 2, mf := true, data := [0, 1, 2, 3, 4, 5, 6, 7] })
    ((run init (f 16)).1.ipq (hash demoKey)).map (fun c => c.frags.length) = [16] ∧
    ((run init (f 17)).1.ipq (hash demoKey)).map (fun c => c.frags.length) = [] := by decide +kernel

/-! ## C45: life time of a queue -/

theorem ageChain_left (c : Chain) : ∀ c', ageChain c = some c' → (c'.qttl.toNat = (if c.qttl.toNat = 0 then 256 else c.qttl.toNat) - 1) := by
  intro c' h
  unfold ageChain at h
  split at h
  · cases h
  · cases h
    show (c.qttl - 1).toNat = _
    by_cases h0 : c.qttl.toNat = 0
    · rw [if_pos h0]
      have : c.qttl = 0 := UInt8.toNat_inj.1 h0
      rw [this]; rfl
    · rw [if_neg h0, UInt8.toNat_sub_of_le _ _ (UInt8.le_iff_toNat_le.2 (by show 1 ≤ _; omega))]
      rfl

/-- **C45, upper bound.** Whatever the state, after 256 seconds without fragments nothing is stored any more. -/
theorem queues_expire (s : St) : ∀ i, (run s (nticks 256)).1.ipq i = [] := by
  have main : ∀ (n : Nat) (s : St), (∀ i, ∀ c ∈ s.ipq i, 0 < c.qttl.toNat ∧ c.qttl.toNat ≤ n) →
      ∀ i, (run s (nticks n)).1.ipq i = [] := by
    intro n
    induction n with
    | zero =>
      intro s h i
      show s.ipq i = []
      cases hl : s.ipq i with
      | nil => rfl
      | cons c l => have := h i c (by rw [hl]; simp); omega
    | succ n ih =>
      intro s h
      apply ih (tick s)
      intro i c hc
      obtain ⟨c0, h0, h1⟩ := List.mem_filterMap.1 hc
      have hb := h i c0 h0
      have e := ageChain_left c0 c h1
      rw [if_neg (by omega)] at e
      refine ⟨?_, by omega⟩
      unfold ageChain at h1
      split at h1
      · cases h1
      · next hne =>
        cases h1
        have : (c0.qttl - 1).toNat ≠ 0 := fun h => hne (UInt8.toNat_inj.1 h)
        exact Nat.pos_of_ne_zero this
  have hd : ∀ m, m = 256 → (run s (nticks m)).1 = (run (tick s) (nticks (m - 1))).1 := by
    intro m hm
    obtain ⟨n, rfl⟩ : ∃ n, m = n + 1 := ⟨255, hm⟩
    rw [nticks_succ, run_cons]
    rfl
  rw [hd 256 rfl]
  apply main (256 - 1) (tick s)
  intro i c hc
  obtain ⟨c0, h0, h1⟩ := List.mem_filterMap.1 hc
  have e := ageChain_left c0 c h1
  have := c0.qttl.toNat_lt
  unfold ageChain at h1
  split at h1
  · cases h1
  · next hne =>
    cases h1
    have h2 : (c0.qttl - 1).toNat ≠ 0 := fun h => hne (UInt8.toNat_inj.1 h)
    have h3 := (c0.qttl - 1).toNat_lt
    exact ⟨Nat.pos_of_ne_zero h2, by show (c0.qttl - 1).toNat ≤ 255; omega⟩

/-- **C45, lower bound, what is true.** A queue just created by a fragment lives through the next `max 15 ttl - 1` ticks,
whatever other datagrams' fragments arrive. -/
theorem queue_lives_partial (hist : List Op) (p : Pkt) (hp : malformed p = false) (hr : p.room = true)
    (hnoq : NoQueue (run init hist).1 p.key) (hn : (run init hist).1.nipq ≤ maxnipq) (ops : List Op)
    (hk : ∀ q ∈ pkts ops, q.key ≠ p.key) (ht : ticks ops < max 15 p.ttl.toNat) :
    ¬ NoQueue (run (reass (run init hist).1 p).1 ops).1 p.key := by
  have w0 := run_wf hist init init_wf
  have pl0 := run_placed hist init init_wf (by intro i c hc; simp [init] at hc)
  obtain ⟨w1, e1, _, _, _⟩ := reass_local w0 hn hr
  rw [(noQueue_iff pl0 _).1 hnoq] at e1
  unfold localStep at e1
  simp only [hp] at e1
  have main : ∀ (ops : List Op) (s : St), WF s → (∀ q ∈ pkts ops, q.key ≠ p.key) →
      (∃ c, chainOf s p.key = some c ∧ ticks ops < c.qttl.toNat) → ∃ c, chainOf (run s ops).1 p.key = some c := by
    intro ops
    induction ops with
    | nil => intro s _ _ h; obtain ⟨c, h, _⟩ := h; exact ⟨c, h⟩
    | cons o ops ih =>
      intro s w hk h
      obtain ⟨c, hc, hlt⟩ := h
      cases o with
      | tick =>
        obtain ⟨w', hage⟩ := tick_wf w
        refine ih (tick s) w' hk ?_
        rw [hage, hc]
        simp only [ticks] at hlt
        have e : (c.qttl - 1).toNat = c.qttl.toNat - 1 :=
          UInt8.toNat_sub_of_le _ _ (UInt8.le_iff_toNat_le.2 (by show 1 ≤ _; omega))
        have hne : c.qttl - 1 ≠ 0 := by
          intro h0
          have h0 := congrArg UInt8.toNat h0
          rw [e] at h0
          have : c.qttl.toNat - 1 = 0 := h0
          omega
        refine ⟨{ c with qttl := c.qttl - 1 }, ?_, by show _ < (c.qttl - 1).toNat; omega⟩
        show ageChain c = _
        unfold ageChain
        rw [if_neg hne]
      | recv q =>
        have hkq := hk q (List.mem_cons_self ..)
        refine ih (reass s q).1 (run_wf [.recv q] s w) (fun x hx => hk x (List.mem_cons_of_mem _ hx)) ?_
        by_cases hh : s.nipq ≤ maxnipq ∧ q.room = true
        · obtain ⟨_, _, _, e3, _⟩ := reass_local w hh.1 hh.2
          rw [e3 p.key (Ne.symm hkq)]
          exact ⟨c, hc, hlt⟩
        · rw [(reass_noop hh).1]; exact ⟨c, hc, hlt⟩
  obtain ⟨c, hc⟩ := main ops (reass (run init hist).1 p).1 w1 hk ⟨_, e1, by
    show ticks ops < (if p.ttl < 15 then (15 : UInt8) else p.ttl).toNat
    split
    · next h =>
      have := UInt8.lt_iff_toNat_lt.1 h
      have h15 : (15 : UInt8).toNat = 15 := rfl
      rw [h15] at this ⊢
      omega
    · next h =>
      have : ¬ p.ttl.toNat < 15 := fun h' => h (UInt8.lt_iff_toNat_lt.2 h')
      omega⟩
  rw [noQueue_iff (run_placed ops _ w1 (reass_placed w0 pl0 p)), hc]
  simp

-- Non-vacuity: a first fragment and 63 ticks with another datagram in between.
example : malformed lonely = false ∧ lonely.room = true ∧ NoQueue (run init []).1 lonely.key ∧
    (run init []).1.nipq ≤ maxnipq ∧ ticks (nticks 14 ++ [.recv piece1]) < max 15 lonely.ttl.toNat :=
  ⟨rfl, rfl, by intro i c hc; simp [run, init] at hc, by decide, by decide⟩

/-- **C45 is violated.** A later fragment with a smaller offset becomes the head of the queue without initialising its
TTL: with a 1 in the headroom the datagram of a TTL-64 sender is discarded at the next tick. -/
theorem queue_lives_violated :
    ∃ p1 p2 : Pkt, p1.ttl = 64 ∧ p2.ttl = 64 ∧ p1.key = p2.key ∧
      (run init [.recv p1, .recv p2]).1.ipq (hash p1.key) ≠ [] ∧
      (run init [.recv p1, .recv p2, .tick]).1.ipq (hash p1.key) = [] :=
  ⟨piece2, { piece1 with junk := 1 }, rfl, rfl, rfl, by decide +kernel, by decide +kernel⟩

/-! ## C46: VRFs -/

/-- **C46, what is true.** If packets of different VRFs never share the identification fields, each delivered datagram
carries the payload of its own VRF. -/
theorem vrf_reassembly_partial (D : Nat → Key → List UInt8) (hD : ∀ v k, (D v k).length ≤ 65535) (ops : List Op)
    (hops : ∀ p ∈ pkts ops, IsFragOf (D p.vrf p.key) p ∧ 20 + p.opts.length + (D p.vrf p.key).length ≤ 65535)
    (hsep : ∀ p ∈ pkts ops, ∀ q ∈ pkts ops, p.key = q.key → p.vrf = q.vrf) :
    ∀ d ∈ delivered (run init ops).2, ∃ q ∈ pkts ops, q.key = d.key ∧ d.data = D q.vrf d.key := by
  classical
  intro d hd
  let v : Key → Nat := fun k => if h : ∃ p ∈ pkts ops, p.key = k then (Classical.choose h).vrf else 0
  have hv : ∀ p ∈ pkts ops, v p.key = p.vrf := by
    intro p hp
    have h : ∃ q ∈ pkts ops, q.key = p.key := ⟨p, hp, rfl⟩
    have hc := Classical.choose_spec h
    show (if h : ∃ q ∈ pkts ops, q.key = p.key then (Classical.choose h).vrf else 0) = _
    rw [dif_pos h]
    exact hsep _ hc.1 _ hp hc.2
  obtain ⟨a, _, q, hq, hk, _⟩ := reassembly_sound (fun k => D (v k) k) (fun k => hD _ k) ops (fun p hp => by
    have := hops p hp
    rw [hv p hp]; exact this) d hd
  refine ⟨q, hq, hk, ?_⟩
  rw [a, ← hk, hv q hq]

/-- **C46 is violated.** Two halves received in different VRFs are put together: the delivered payload is that of
neither VRF. -/
theorem vrf_reassembly_violated :
    ∃ (D : Nat → Key → List UInt8) (ops : List Op),
      (∀ p ∈ pkts ops, IsFragOf (D p.vrf p.key) p) ∧
      ∃ d ∈ delivered (run init ops).2, ∀ q ∈ pkts ops, d.data ≠ D q.vrf d.key := by
  refine ⟨fun v _ => List.replicate 9 (UInt8.ofNat v),
    [.recv { key := demoKey, vrf := 1, off := 0, mf := true, data := List.replicate 8 1 },
     .recv { key := demoKey, vrf := 2, off := 1, mf := false, data := [2] }], by decide +kernel,
    ⟨demoKey, [], 64, 29, List.replicate 8 1 ++ [2]⟩, by decide +kernel, by decide +kernel⟩

end Verif.Reass
