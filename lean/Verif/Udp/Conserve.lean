import Verif.Udp.Deliver
/-! # Packet buffers: none lost, none used twice -/
namespace Verif.Udp

theorem sum_upd (f : Sk → Nat) (g : Nat → Sk) (i : Nat) (v : Sk) (n : Nat) :
    ((List.range n).map fun j => f (Pcb.upd g i v j)).sum + (if i < n then f (g i) else 0) =
      ((List.range n).map fun j => f (g j)).sum + (if i < n then f v else 0) := by
  induction n with
  | zero => rfl
  | succ n ih =>
    rw [List.range_succ, List.map_append, List.map_append, List.sum_append, List.sum_append]
    simp only [List.map_cons, List.map_nil, List.sum_cons, List.sum_nil, Nat.add_zero]
    by_cases h : i = n
    · subst h
      rw [if_neg (by omega), if_neg (by omega)] at ih
      rw [if_pos (by omega), if_pos (by omega)]
      have : Pcb.upd g i v i = v := by simp [Pcb.upd]
      rw [this]; omega
    · have hu : Pcb.upd g i v n = g n := by
        show (if n = i then v else g n) = g n
        rw [if_neg (fun h' => h h'.symm)]
      rw [hu]
      by_cases hlt : i < n
      · rw [if_pos hlt, if_pos hlt] at ih
        rw [if_pos (by omega), if_pos (by omega)]; omega
      · rw [if_neg hlt, if_neg hlt] at ih
        rw [if_neg (by omega), if_neg (by omega)]; omega

theorem count_single (a x : Nat) : ([a] : List Nat).count x = if a = x then 1 else 0 := by
  by_cases h : a = x
  · subst h; simp
  · rw [if_neg h, List.count_singleton]; simp [h]

theorem deliver_held (s : St) (i : Nat) (b : Buf) (hi : i < s.tab.next) (x : Nat) :
    held (deliver s i b) x = held s x + if b.id = x then 1 else 0 := by
  unfold deliver
  by_cases h1 : (s.sk i).takes b.id = true
  · rw [if_pos h1]
    unfold held
    simp only [List.map_append, List.map_cons, List.map_nil, List.count_append, count_single]
    omega
  · rw [if_neg h1]
    by_cases h2 : (s.sk i).rcv.length < room
    · rw [if_pos h2]
      unfold held
      have := sum_upd (fun k => (k.rcv.map Buf.id).count x) s.sk i { s.sk i with rcv := (s.sk i).rcv ++ [b] } s.tab.next
      simp only [if_pos hi, List.map_append, List.map_cons, List.map_nil, List.count_append, count_single] at this
      simp only
      omega
    · rw [if_neg h2]
      unfold held
      simp only [List.count_append, count_single]
      omega

theorem appendCopy_held (ok : Nat → Bool) (s : St) (i : Nat) (b : Buf) (sa : List UInt8) (hi : i < s.tab.next) (x : Nat) :
    held (appendCopy ok s i b sa) x = (held s x + if s.next = x ∧ ok x = true then 1 else 0) ∧
    (appendCopy ok s i b sa).next = s.next + 1 := by
  have hd : ∀ (t : St) (k : Nat) (c : Buf), (deliver t k c).next = t.next := by
    intro t k c
    unfold deliver
    by_cases g1 : (t.sk k).takes c.id = true
    · rw [if_pos g1]
    · rw [if_neg g1]
      by_cases g2 : (t.sk k).rcv.length < room
      · rw [if_pos g2]
      · rw [if_neg g2]
  unfold appendCopy
  by_cases h : ok s.next = true
  · rw [if_pos h]
    constructor
    · have := deliver_held { s with next := s.next + 1 } i (Buf.save { b with id := s.next } sa) hi x
      rw [show append { s with next := s.next + 1 } i { b with id := s.next } sa =
        deliver { s with next := s.next + 1 } i (Buf.save { b with id := s.next } sa) from rfl, this]
      show held s x + (if s.next = x then 1 else 0) = _
      by_cases hx : s.next = x
      · rw [if_pos hx, if_pos ⟨hx, hx ▸ h⟩]
      · rw [if_neg hx, if_neg (fun g => hx g.1)]
    · exact hd _ _ _
  · rw [if_neg h]
    refine ⟨?_, rfl⟩
    have hno : ¬ (s.next = x ∧ ok x = true) := by
      rintro ⟨g1, g2⟩
      exact h (by rw [g1]; exact g2)
    rw [if_neg hno]
    rfl

theorem copies_held (ok : Nat → Bool) (b : Buf) (sa : List UInt8) (x : Nat) (l : List Nat) :
    ∀ s : St, (∀ i ∈ l, i < s.tab.next) →
      held (copies ok b sa l s) x =
        (held s x + if s.next ≤ x ∧ x < s.next + l.length ∧ ok x = true then 1 else 0) ∧
      (copies ok b sa l s).next = s.next + l.length := by
  induction l with
  | nil =>
    intro s _
    refine ⟨?_, rfl⟩
    rw [if_neg (by simp only [List.length_nil]; omega)]; rfl
  | cons i r ih =>
    intro s hl
    have ha := appendCopy_held ok s i b sa (hl i List.mem_cons_self) x
    have hlike := appendCopy_like ok s i b sa
    have h1 := ih (appendCopy ok s i b sa) (fun j hj => by rw [hlike.tab]; exact hl j (List.mem_cons_of_mem _ hj))
    rw [show copies ok b sa (i :: r) s = copies ok b sa r (appendCopy ok s i b sa) from rfl]
    rw [ha.1, ha.2] at h1
    refine ⟨?_, by rw [h1.2, List.length_cons]; omega⟩
    rw [h1.1, List.length_cons, Nat.add_assoc]
    congr 1
    cases hx : ok x with
    | false => simp
    | true =>
      by_cases hb : s.next = x
      · rw [if_pos ⟨hb, rfl⟩, if_neg (by omega), if_pos ⟨by omega, by omega, rfl⟩]
      · rw [if_neg (fun g => hb g.1)]
        by_cases hc : s.next + 1 ≤ x ∧ x < s.next + 1 + r.length
        · rw [if_pos ⟨hc.1, hc.2, rfl⟩, if_pos ⟨by omega, by omega, rfl⟩]
        · rw [if_neg (fun g => hc ⟨g.1, g.2.1⟩), if_neg (fun g => hc ⟨by omega, by omega⟩)]

/-- **C118 (input).**  After the input function every buffer is held exactly as often as before, but for two cases:
the packet itself is held once more if the function kept it (`OFP_PKT_PROCESSED`; otherwise it is still the caller's),
and every copy that was made is held once.  So no buffer is lost, none is freed or queued twice.  `hin`: the sockets
the lookup can find exist (holds in every reachable table, `TI.fresh`). -/
theorem input_conserves (e : Env) (s : St) (b : Buf)
    (hin : ∀ i, Pcb.lookupHash e.cfg s.tab b.src b.sport b.dst b.dport true = some i → i < s.tab.next) (x : Nat) :
    s.next ≤ (input e s b).2.next ∧
    held (input e s b).2 x = held s x + (if (input e s b).1 = .processed ∧ b.id = x then 1 else 0) +
      (if s.next ≤ x ∧ x < (input e s b).2.next ∧ e.copyOk x = true then 1 else 0) := by
  have fin : ∀ c (t : St) m, input e s b = (c, t) → t.next = m → s.next ≤ m →
      held t x = held s x + (if c = .processed ∧ b.id = x then 1 else 0) +
        (if s.next ≤ x ∧ x < m ∧ e.copyOk x = true then 1 else 0) → s.next ≤ (input e s b).2.next ∧
      held (input e s b).2 x = held s x + (if (input e s b).1 = .processed ∧ b.id = x then 1 else 0) +
      (if s.next ≤ x ∧ x < (input e s b).2.next ∧ e.copyOk x = true then 1 else 0) := by
    intro c t m h1 h2 h3 h4
    subst h2
    rw [h1]
    exact ⟨h3, h4⟩
  have same : ∀ c, c ≠ .processed → input e s b = (c, s) → s.next ≤ (input e s b).2.next ∧
      held (input e s b).2 x = held s x + (if (input e s b).1 = .processed ∧ b.id = x then 1 else 0) +
      (if s.next ≤ x ∧ x < (input e s b).2.next ∧ e.copyOk x = true then 1 else 0) := by
    intro c hc h
    refine fin c s s.next h rfl (Nat.le_refl _) ?_
    rw [if_neg (fun g => hc g.1), if_neg (by omega)]
    rfl
  have dnext : ∀ (t : St) (k : Nat) (c : Buf), (deliver t k c).next = t.next := by
    intro t k c
    unfold deliver
    by_cases g1 : (t.sk k).takes c.id = true
    · rw [if_pos g1]
    · rw [if_neg g1]
      by_cases g2 : (t.sk k).rcv.length < room
      · rw [if_pos g2]
      · rw [if_neg g2]
  by_cases h1 : b.l2.length + b.l3.length < b.hlen + 8
  · exact same .cont (by simp) (by unfold input; rw [if_pos h1])
  by_cases h2 : b.dport = 0
  · exact same .drop (by simp) (by unfold input; rw [if_neg h1, if_pos h2])
  by_cases h3 : rejects e.al b = true
  · exact same .drop (by simp) (by unfold input; rw [if_neg h1, if_neg h2, if_pos h3])
  have ha : Accepted e b := ⟨h1, h2, by simpa using h3⟩
  by_cases hg : (multicast b.dst || broadcast b.dst) = true
  · have hi := input_group e s b ha hg
    simp only at hi
    rcases list_cases (receivers s b (pcbList s.tab)) with hl | ⟨l', k, hl⟩
    · exact same .cont (by simp) (hi.1 hl)
    · have hmem : ∀ j ∈ l' ++ [k], j < s.tab.next := by
        intro j hj
        rw [← hl] at hj
        exact (mem_pcbList s.tab j).1 ((receivers_sub s b _).subset hj)
      have hc := copies_held e.copyOk b (sockaddr b.src b.sport) x l' s
        (fun j hj => hmem j (List.mem_append_left _ hj))
      have hlike := copies_like e.copyOk b (sockaddr b.src b.sport) l' s
      have hd := deliver_held (copies e.copyOk b (sockaddr b.src b.sport) l' s) k (b.save (sockaddr b.src b.sport))
        (by rw [hlike.tab]; exact hmem k (by simp)) x
      have hn := dnext (copies e.copyOk b (sockaddr b.src b.sport) l' s) k (b.save (sockaddr b.src b.sport))
      rw [hc.2] at hn
      refine fin _ _ _ (hi.2 l' k hl) hn (by omega) ?_
      simp only [append]
      rw [hd, hc.1]
      have hid : (b.save (sockaddr b.src b.sport)).id = b.id := rfl
      rw [hid]
      simp only [true_and]
      omega
  · have hbase : input e s b = match Pcb.lookupHash e.cfg s.tab b.src b.sport b.dst b.dport true with
        | none => if e.blackhole then (.drop, s) else (.cont, s)
        | some i =>
          if (s.sk i).minttl ≠ 0 ∧ b.ttl < (s.sk i).minttl then
            (.processed, { s with freed := s.freed ++ [b.id] })
          else (.processed, append s i b (sockaddr b.src b.sport)) := by
      unfold input
      rw [if_neg h1, if_neg h2, if_neg h3]
      show (if _ then _ else _) = _
      rw [if_neg hg]
      rfl
    cases hlk : Pcb.lookupHash e.cfg s.tab b.src b.sport b.dst b.dport true with
    | none =>
      rw [hlk] at hbase
      simp only at hbase
      by_cases hb : e.blackhole = true
      · rw [if_pos hb] at hbase; exact same .drop (by simp) hbase
      · rw [if_neg hb] at hbase; exact same .cont (by simp) hbase
    | some i =>
      rw [hlk] at hbase
      simp only at hbase
      by_cases ht : (s.sk i).minttl ≠ 0 ∧ b.ttl < (s.sk i).minttl
      · rw [if_pos ht] at hbase
        refine fin _ _ s.next hbase rfl (Nat.le_refl _) ?_
        rw [if_neg (show ¬ (s.next ≤ x ∧ x < s.next ∧ _) by omega)]
        unfold held
        simp only [List.count_append, count_single, true_and]
        omega
      · rw [if_neg ht] at hbase
        have hd := deliver_held s i (b.save (sockaddr b.src b.sport)) (hin i hlk) x
        have hn := dnext s i (b.save (sockaddr b.src b.sport))
        refine fin _ _ s.next hbase hn (Nat.le_refl _) ?_
        rw [if_neg (show ¬ (s.next ≤ x ∧ x < s.next ∧ _) by omega)]
        simp only [append, true_and]
        rw [hd]; rfl

/-- **C118 (reading).**  Reading frees the buffer of the datagram and touches no other. -/
theorem recvfrom_conserves (s : St) (i n : Nat) (hi : i < s.tab.next) (x : Nat) :
    held (recvfrom s i n).2 x = held s x := by
  unfold recvfrom
  cases hq : (s.sk i).rcv with
  | nil => rfl
  | cons b q =>
    unfold held
    have := sum_upd (fun k => (k.rcv.map Buf.id).count x) s.sk i { s.sk i with rcv := q } s.tab.next
    simp only [if_pos hi, hq, List.map_cons, List.count_cons] at this
    simp only [List.count_append, count_single]
    have e1 : (if (b.id == x) = true then 1 else 0) = (if b.id = x then 1 else 0 : Nat) := by
      by_cases hb : b.id = x <;> simp [hb]
    rw [e1] at this
    omega

end Verif.Udp
