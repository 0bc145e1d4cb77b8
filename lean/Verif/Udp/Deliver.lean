import Verif.Udp.Recv
/-! # Delivery: who gets a datagram -/
namespace Verif.Udp

/-- Same table and same sockets, up to what is in the receive buffers. -/
structure Like (s t : St) : Prop where
  tab : t.tab = s.tab
  sk : ∀ j, ∃ q, t.sk j = { s.sk j with rcv := q }

theorem Like.refl (s : St) : Like s s := ⟨rfl, fun j => ⟨(s.sk j).rcv, rfl⟩⟩

theorem Like.trans {a b c : St} (h : Like a b) (g : Like b c) : Like a c := by
  refine ⟨g.tab.trans h.tab, fun j => ?_⟩
  obtain ⟨q, hq⟩ := h.sk j
  obtain ⟨r, hr⟩ := g.sk j
  exact ⟨r, by rw [hr, hq]⟩

theorem Like.mopt {s t : St} (h : Like s t) (j : Nat) : (t.sk j).mopt = (s.sk j).mopt := by
  obtain ⟨q, hq⟩ := h.sk j; rw [hq]

theorem Like.takes {s t : St} (h : Like s t) (j : Nat) : (t.sk j).takes = (s.sk j).takes := by
  obtain ⟨q, hq⟩ := h.sk j; rw [hq]

theorem deliver_like (s : St) (i : Nat) (b : Buf) : Like s (deliver s i b) := by
  unfold deliver
  by_cases h1 : (s.sk i).takes b.id = true
  · rw [if_pos h1]; exact ⟨rfl, fun j => ⟨(s.sk j).rcv, rfl⟩⟩
  · rw [if_neg h1]
    by_cases h2 : (s.sk i).rcv.length < room
    · rw [if_pos h2]
      refine ⟨rfl, fun j => ?_⟩
      by_cases hj : j = i
      · subst hj; exact ⟨(s.sk j).rcv ++ [b], by simp [Pcb.upd]⟩
      · exact ⟨(s.sk j).rcv, by simp [Pcb.upd, hj]⟩
    · rw [if_neg h2]; exact ⟨rfl, fun j => ⟨(s.sk j).rcv, rfl⟩⟩

theorem appendCopy_like (ok : Nat → Bool) (s : St) (i : Nat) (b : Buf) (sa : List UInt8) :
    Like s (appendCopy ok s i b sa) := by
  unfold appendCopy
  by_cases h : ok s.next = true
  · rw [if_pos h]
    exact Like.trans (b := { s with next := s.next + 1 }) ⟨rfl, fun j => ⟨(s.sk j).rcv, rfl⟩⟩
      (deliver_like { s with next := s.next + 1 } i (Buf.save { b with id := s.next } sa))
  · rw [if_neg h]; exact ⟨rfl, fun j => ⟨(s.sk j).rcv, rfl⟩⟩

/-- What a delivery does to the receive buffers. -/
theorem deliver_rcv (s : St) (i : Nat) (b : Buf) (j : Nat) :
    (j ≠ i → ((deliver s i b).sk j).rcv = (s.sk j).rcv) ∧
    (((deliver s i b).sk i).rcv = (s.sk i).rcv ∨ ((deliver s i b).sk i).rcv = (s.sk i).rcv ++ [b]) ∧
    ((s.sk i).takes b.id = false → (s.sk i).rcv.length < room →
      ((deliver s i b).sk i).rcv = (s.sk i).rcv ++ [b]) := by
  unfold deliver
  by_cases h1 : (s.sk i).takes b.id = true
  · rw [if_pos h1]
    exact ⟨fun _ => rfl, .inl rfl, fun h => by rw [h1] at h; cases h⟩
  · rw [if_neg h1]
    by_cases h2 : (s.sk i).rcv.length < room
    · rw [if_pos h2]
      refine ⟨fun hj => ?_, .inr ?_, fun _ _ => ?_⟩
      · show (if j = i then _ else s.sk j).rcv = _
        rw [if_neg hj]
      · simp [Pcb.upd]
      · simp [Pcb.upd]
    · rw [if_neg h2]
      exact ⟨fun _ => rfl, .inl rfl, fun _ h => absurd h h2⟩

/-- `q` is the packet `b`, perhaps in another buffer, with the sender's address saved. -/
def Copy (b : Buf) (sa : List UInt8) (q : Buf) : Prop := ∃ x, q = Buf.save { b with id := x } sa

theorem appendCopy_rcv (ok : Nat → Bool) (s : St) (i : Nat) (b : Buf) (sa : List UInt8) (j : Nat) :
    (j ≠ i → ((appendCopy ok s i b sa).sk j).rcv = (s.sk j).rcv) ∧
    (((appendCopy ok s i b sa).sk i).rcv = (s.sk i).rcv ∨
      ∃ q, Copy b sa q ∧ ((appendCopy ok s i b sa).sk i).rcv = (s.sk i).rcv ++ [q]) ∧
    ((∀ x, ok x = true) → (∀ x, (s.sk i).takes x = false) → (s.sk i).rcv.length < room →
      ∃ q, Copy b sa q ∧ ((appendCopy ok s i b sa).sk i).rcv = (s.sk i).rcv ++ [q]) := by
  unfold appendCopy
  by_cases h : ok s.next = true
  · rw [if_pos h]
    have hd := deliver_rcv { s with next := s.next + 1 } i (Buf.save { b with id := s.next } sa) j
    refine ⟨hd.1, ?_, fun _ ht hr => ⟨_, ⟨s.next, rfl⟩, hd.2.2 (ht _) hr⟩⟩
    rcases hd.2.1 with h1 | h1
    · exact .inl h1
    · exact .inr ⟨_, ⟨s.next, rfl⟩, h1⟩
  · rw [if_neg h]
    exact ⟨fun _ => rfl, .inl rfl, fun hok => absurd (hok _) h⟩

/-- The sockets of the list that get the datagram: those that want it, up to the first that does not share its port. -/
def receivers (s : St) (b : Buf) : List Nat → List Nat
  | [] => []
  | i :: r =>
    match s.tab.pcb i with
    | none => receivers s b r
    | some p =>
      if wants p (s.sk i) b then
        if p.opts.reuseport || p.opts.reuseaddr then i :: receivers s b r else [i]
      else receivers s b r

theorem wants_like {s t : St} (h : Like s t) (p : Pcb.Pcb) (i : Nat) (b : Buf) :
    wants p (t.sk i) b = wants p (s.sk i) b := by
  unfold wants; rw [h.mopt]

theorem receivers_like {s t : St} (h : Like s t) (b : Buf) (l : List Nat) : receivers t b l = receivers s b l := by
  induction l with
  | nil => rfl
  | cons i r ih => simp only [receivers, h.tab, wants_like h, ih]

def copies (ok : Nat → Bool) (b : Buf) (sa : List UInt8) (l : List Nat) (s : St) : St :=
  l.foldl (fun s j => appendCopy ok s j b sa) s

theorem multiLoop_eq (ok : Nat → Bool) (b : Buf) (sa : List UInt8) (l : List Nat) : ∀ (last : Option Nat) (s : St),
    multiLoop ok b sa l last s =
      ((last.toList ++ receivers s b l).getLast?, copies ok b sa (last.toList ++ receivers s b l).dropLast s) := by
  induction l with
  | nil =>
    intro last s
    cases last <;> rfl
  | cons i r ih =>
    intro last s
    unfold multiLoop receivers
    cases hp : s.tab.pcb i with
    | none => simp only [hp]; exact ih last s
    | some p =>
      simp only [hp]
      by_cases hw : wants p (s.sk i) b = true
      · rw [if_pos hw, if_pos hw]
        have key : ∀ (s1 : St), Like s s1 → s1 = copies ok b sa last.toList s →
            (if (p.opts.reuseport || p.opts.reuseaddr) = true then multiLoop ok b sa r (some i) s1 else (some i, s1)) =
            ((last.toList ++ if (p.opts.reuseport || p.opts.reuseaddr) = true then i :: receivers s b r else [i]).getLast?,
              copies ok b sa (last.toList ++ if (p.opts.reuseport || p.opts.reuseaddr) = true then
                i :: receivers s b r else [i]).dropLast s) := by
          intro s1 hl hs
          by_cases hr : (p.opts.reuseport || p.opts.reuseaddr) = true
          · rw [if_pos hr, if_pos hr, ih, receivers_like hl, hs]
            simp only [Option.toList_some, List.singleton_append]
            refine Prod.ext ?_ ?_
            · show _ = (last.toList ++ i :: receivers s b r).getLast?
              rw [List.getLast?_append_of_ne_nil _ (by simp)]
            · show _ = copies ok b sa (last.toList ++ i :: receivers s b r).dropLast s
              rw [List.dropLast_append_of_ne_nil (by simp)]
              simp only [copies, List.foldl_append]
          · rw [if_neg hr, if_neg hr, hs]
            refine Prod.ext ?_ ?_
            · show _ = (last.toList ++ [i]).getLast?
              rw [List.getLast?_append_of_ne_nil _ (by simp)]; rfl
            · show _ = copies ok b sa (last.toList ++ [i]).dropLast s
              rw [List.dropLast_append_of_ne_nil (by simp)]
              simp [copies]
        cases last with
        | none => exact key s (Like.refl s) rfl
        | some j => exact key _ (appendCopy_like ok s j b sa) rfl
      · rw [if_neg hw, if_neg hw]; exact ih last s

theorem copies_like (ok : Nat → Bool) (b : Buf) (sa : List UInt8) (l : List Nat) :
    ∀ s, Like s (copies ok b sa l s) := by
  induction l with
  | nil => exact fun s => Like.refl s
  | cons i r ih => intro s; exact (appendCopy_like ok s i b sa).trans (ih _)

theorem copies_rcv (ok : Nat → Bool) (b : Buf) (sa : List UInt8) (l : List Nat) (hn : l.Nodup) (j : Nat) :
    ∀ s, (j ∉ l → ((copies ok b sa l s).sk j).rcv = (s.sk j).rcv) ∧
    (((copies ok b sa l s).sk j).rcv = (s.sk j).rcv ∨
      ∃ q, Copy b sa q ∧ ((copies ok b sa l s).sk j).rcv = (s.sk j).rcv ++ [q]) ∧
    (j ∈ l → (∀ x, ok x = true) → (∀ x, (s.sk j).takes x = false) → (s.sk j).rcv.length < room →
      ∃ q, Copy b sa q ∧ ((copies ok b sa l s).sk j).rcv = (s.sk j).rcv ++ [q]) := by
  induction l with
  | nil => exact fun s => ⟨fun _ => rfl, .inl rfl, fun h => by cases h⟩
  | cons i r ih =>
    intro s
    obtain ⟨hi, hr⟩ := List.nodup_cons.1 hn
    have h1 := ih hr (appendCopy ok s i b sa)
    have ha := appendCopy_rcv ok s i b sa j
    have e : copies ok b sa (i :: r) s = copies ok b sa r (appendCopy ok s i b sa) := rfl
    rw [e]
    by_cases hj : j = i
    · subst hj
      rw [h1.1 hi]
      exact ⟨fun h => absurd List.mem_cons_self h, ha.2.1, fun _ => ha.2.2⟩
    · rw [ha.1 hj] at h1
      refine ⟨fun h => h1.1 (fun g => h (List.mem_cons_of_mem _ g)), h1.2.1, fun h hok ht hroom => ?_⟩
      have hjr : j ∈ r := by
        rcases List.mem_cons.1 h with h | h
        · exact absurd h hj
        · exact h
      exact h1.2.2 hjr hok (fun x => by rw [(appendCopy_like ok s i b sa).takes]; exact ht x) hroom

theorem receivers_sub (s : St) (b : Buf) (l : List Nat) : (receivers s b l).Sublist l := by
  induction l with
  | nil => exact .slnil
  | cons i r ih =>
    unfold receivers
    cases hp : s.tab.pcb i with
    | none => exact ih.cons _
    | some p =>
      simp only
      by_cases hw : wants p (s.sk i) b = true
      · rw [if_pos hw]
        by_cases hr : (p.opts.reuseport || p.opts.reuseaddr) = true
        · rw [if_pos hr]; exact ih.cons_cons _
        · rw [if_neg hr]; exact (List.nil_sublist r).cons_cons _
      · rw [if_neg hw]; exact ih.cons _

theorem wants_iff (s : St) (b : Buf) (i : Nat) (p : Pcb.Pcb) (hp : s.tab.pcb i = some p) :
    wants p (s.sk i) b = true ↔ Wanted s b i := by
  unfold wants Wanted
  simp only [Bool.and_eq_true, Bool.or_eq_true, beq_iff_eq, Bool.not_eq_true', hp, Option.some.injEq]
  constructor
  · rintro ⟨⟨⟨⟨h1, h2⟩, h3⟩, h4⟩, h5⟩
    refine ⟨p, rfl, h1, h2, h3, h4, fun hm => ?_⟩
    rcases h5 with h5 | h5
    · rw [hm] at h5; cases h5
    · cases hf : (s.sk i).mopt with
      | none => rw [hf] at h5; cases h5
      | some f => rw [hf] at h5; exact ⟨f, rfl, h5⟩
  · rintro ⟨p', rfl, h1, h2, h3, h4, h5⟩
    refine ⟨⟨⟨⟨h1, h2⟩, h3⟩, h4⟩, ?_⟩
    cases hm : multicast b.dst with
    | false => exact .inl rfl
    | true =>
      obtain ⟨f, hf, hv⟩ := h5 hm
      right; rw [hf]; exact hv

theorem receivers_wanted (s : St) (b : Buf) (l : List Nat) : ∀ i ∈ receivers s b l, Wanted s b i := by
  induction l with
  | nil => intro i h; cases h
  | cons k r ih =>
    intro i h
    unfold receivers at h
    cases hp : s.tab.pcb k with
    | none => rw [hp] at h; exact ih i h
    | some p =>
      rw [hp] at h
      simp only at h
      by_cases hw : wants p (s.sk k) b = true
      · rw [if_pos hw] at h
        have hk : Wanted s b k := (wants_iff s b k p hp).1 hw
        by_cases hr : (p.opts.reuseport || p.opts.reuseaddr) = true
        · rw [if_pos hr] at h
          rcases List.mem_cons.1 h with rfl | h
          · exact hk
          · exact ih i h
        · rw [if_neg hr] at h
          rw [List.mem_singleton.1 h]; exact hk
      · rw [if_neg hw] at h; exact ih i h

/-- The port is shared: a socket option allows several sockets. -/
def Shares (s : St) (i : Nat) : Prop := ∀ p, s.tab.pcb i = some p → p.opts.reuseport = true ∨ p.opts.reuseaddr = true

theorem receivers_all (s : St) (b : Buf) (l : List Nat) (hs : ∀ i, Wanted s b i → Shares s i) :
    ∀ i ∈ l, Wanted s b i → i ∈ receivers s b l := by
  induction l with
  | nil => intro i h; cases h
  | cons k r ih =>
    intro i h hw
    unfold receivers
    cases hp : s.tab.pcb k with
    | none =>
      simp only
      rcases List.mem_cons.1 h with rfl | h
      · obtain ⟨p, h1, _⟩ := hw
        rw [hp] at h1; cases h1
      · exact ih i h hw
    | some p =>
      simp only
      by_cases hwk : wants p (s.sk k) b = true
      · rw [if_pos hwk]
        have hsh := hs k ((wants_iff s b k p hp).1 hwk) p hp
        rw [if_pos (by rcases hsh with h | h <;> simp [h])]
        rcases List.mem_cons.1 h with rfl | h
        · exact List.mem_cons_self
        · exact List.mem_cons_of_mem _ (ih i h hw)
      · rw [if_neg hwk]
        rcases List.mem_cons.1 h with rfl | h
        · exact absurd ((wants_iff s b i p hp).2 hw) hwk
        · exact ih i h hw

theorem pcbList_nodup (t : Pcb.Tab) : (pcbList t).Nodup := by
  unfold pcbList
  exact List.nodup_reverse.2 List.nodup_range

theorem mem_pcbList (t : Pcb.Tab) (i : Nat) : i ∈ pcbList t ↔ i < t.next := by
  unfold pcbList; simp

/-- The group branch of the input function. -/
theorem input_group (e : Env) (s : St) (b : Buf) (ha : Accepted e b) (hg : (multicast b.dst || broadcast b.dst) = true) :
    let l := receivers s b (pcbList s.tab)
    let sa := sockaddr b.src b.sport
    (l = [] → input e s b = (.cont, s)) ∧
    (∀ l' k, l = l' ++ [k] → input e s b = (.processed, append (copies e.copyOk b sa l' s) k b sa)) := by
  intro l sa
  have hin : input e s b = match (multiLoop e.copyOk b sa (pcbList s.tab) none s).1 with
      | none => (.cont, (multiLoop e.copyOk b sa (pcbList s.tab) none s).2)
      | some i => (.processed, append (multiLoop e.copyOk b sa (pcbList s.tab) none s).2 i b sa) := by
    unfold input
    rw [if_neg ha.long, if_neg ha.port, if_neg (by rw [ha.sum]; exact Bool.false_ne_true)]
    show (if _ then _ else _) = _
    rw [if_pos hg]
    rfl
  rw [multiLoop_eq] at hin
  simp only [Option.toList_none, List.nil_append] at hin
  constructor
  · intro h
    rw [hin]
    show (match (List.getLast? l) with | none => (_, copies _ _ _ l.dropLast s) | some i => (_, append (copies _ _ _ l.dropLast s) _ _ _)) = _
    rw [h]; rfl
  · intro l' k h
    rw [hin]
    show (match (List.getLast? l) with | none => (_, copies _ _ _ l.dropLast s) | some i => (_, append (copies _ _ _ l.dropLast s) _ _ _)) = _
    rw [h, List.getLast?_concat, List.dropLast_concat]

theorem list_cases (l : List Nat) : l = [] ∨ ∃ l' k, l = l' ++ [k] := by
  rcases List.eq_nil_or_concat l with h | ⟨a, b, h⟩
  · exact .inl h
  · exact .inr ⟨a, b, by rw [h, List.concat_eq_append]⟩

/-- **C116.**  Whatever the packet and the state: a socket gets at most one datagram from it; it is that packet with
its sender; the packet has passed the checks; and the socket is one the packet is for: for a broadcast or multicast
one that is bound to it (and has joined), otherwise the best match of the lookup (C67).  Nobody's other attributes
change. -/
theorem input_safe (e : Env) (s : St) (b : Buf) (j : Nat) :
    (∃ q, (input e s b).2.sk j = { s.sk j with rcv := q }) ∧
    (((input e s b).2.sk j).rcv = (s.sk j).rcv ∨
      ((∃ q, Copy b (sockaddr b.src b.sport) q ∧ ((input e s b).2.sk j).rcv = (s.sk j).rcv ++ [q]) ∧
        Accepted e b ∧ (input e s b).1 = .processed ∧
        if (multicast b.dst || broadcast b.dst) = true then Wanted s b j
        else Pcb.lookupHash e.cfg s.tab b.src b.sport b.dst b.dport true = some j)) := by
  have same : ∀ c, input e s b = (c, s) → (∃ q, (input e s b).2.sk j = { s.sk j with rcv := q }) ∧
      ((input e s b).2.sk j).rcv = (s.sk j).rcv := fun c h => by rw [h]; exact ⟨⟨(s.sk j).rcv, rfl⟩, rfl⟩
  by_cases h1 : b.l2.length + b.l3.length < b.hlen + 8
  · have := same .cont (by unfold input; rw [if_pos h1])
    exact ⟨this.1, .inl this.2⟩
  by_cases h2 : b.dport = 0
  · have := same .drop (by unfold input; rw [if_neg h1, if_pos h2])
    exact ⟨this.1, .inl this.2⟩
  by_cases h3 : rejects e.al b = true
  · have := same .drop (by unfold input; rw [if_neg h1, if_neg h2, if_pos h3])
    exact ⟨this.1, .inl this.2⟩
  have ha : Accepted e b := ⟨h1, h2, by simpa using h3⟩
  by_cases hg : (multicast b.dst || broadcast b.dst) = true
  · have hi := input_group e s b ha hg
    simp only at hi
    rcases list_cases (receivers s b (pcbList s.tab)) with hl | ⟨l', k, hl⟩
    · have := same .cont (hi.1 hl)
      exact ⟨this.1, .inl this.2⟩
    · have hin := hi.2 l' k hl
      have hnd : (l' ++ [k]).Nodup := hl ▸ (pcbList_nodup s.tab).sublist (receivers_sub s b _)
      have hk : k ∉ l' := fun hm => by
        have := (List.nodup_append.1 hnd).2.2 k hm k (List.mem_singleton.2 rfl)
        exact this rfl
      have hl'n := (List.nodup_append.1 hnd).1
      generalize hsa : sockaddr b.src b.sport = sa at *
      have hc := copies_like e.copyOk b sa l' s
      have hd := deliver_like (copies e.copyOk b sa l' s) k (b.save sa)
      have hlike := hc.trans hd
      rw [hin]
      refine ⟨hlike.sk j, ?_⟩
      have hcr := copies_rcv e.copyOk b sa l' hl'n j s
      have hdr := deliver_rcv (copies e.copyOk b sa l' s) k (b.save sa) j
      show ((deliver (copies e.copyOk b sa l' s) k (b.save sa)).sk j).rcv = _ ∨ _
      by_cases hjk : j = k
      · subst hjk
        rw [hcr.1 hk] at hdr
        rcases hdr.2.1 with h | h
        · exact .inl h
        · refine .inr ⟨⟨_, ⟨b.id, rfl⟩, h⟩, ha, rfl, ?_⟩
          rw [if_pos hg]
          exact receivers_wanted s b (pcbList s.tab) j (by rw [hl]; simp)
      · rw [hdr.1 hjk]
        by_cases hm : j ∈ l'
        · rcases hcr.2.1 with h | ⟨q, h4, h5⟩
          · exact .inl h
          · refine .inr ⟨⟨q, h4, ?_⟩, ha, rfl, ?_⟩
            · show ((deliver (copies e.copyOk b sa l' s) k (b.save sa)).sk j).rcv = _
              rw [hdr.1 hjk]; exact h5
            · rw [if_pos hg]
              exact receivers_wanted s b (pcbList s.tab) j (by rw [hl]; simp [hm])
        · exact .inl (hcr.1 hm)
  · have hbase : input e s b = match Pcb.lookupHash e.cfg s.tab b.src b.sport b.dst b.dport true with
        | none => if e.blackhole then (.drop, s) else (.cont, s)
        | some i =>
          if (s.sk i).minttl ≠ 0 ∧ b.ttl < (s.sk i).minttl then
            (.processed, { s with freed := s.freed ++ [b.id] })
          else (.processed, append s i b (sockaddr b.src b.sport)) := by
      unfold input
      rw [if_neg h1, if_neg h2, if_neg h3]
      show (if _ then _ else _) = _
      rw [if_neg hg]
      rfl
    cases hlk : Pcb.lookupHash e.cfg s.tab b.src b.sport b.dst b.dport true with
    | none =>
      rw [hlk] at hbase
      simp only at hbase
      by_cases hb : e.blackhole = true
      · rw [if_pos hb] at hbase
        have := same .drop hbase
        exact ⟨this.1, .inl this.2⟩
      · rw [if_neg hb] at hbase
        have := same .cont hbase
        exact ⟨this.1, .inl this.2⟩
    | some i =>
      rw [hlk] at hbase
      simp only at hbase
      by_cases ht : (s.sk i).minttl ≠ 0 ∧ b.ttl < (s.sk i).minttl
      · rw [if_pos ht] at hbase
        rw [hbase]
        exact ⟨⟨(s.sk j).rcv, rfl⟩, .inl rfl⟩
      · rw [if_neg ht] at hbase
        rw [hbase]
        have hd := deliver_like s i (b.save (sockaddr b.src b.sport))
        have hdr := deliver_rcv s i (b.save (sockaddr b.src b.sport)) j
        refine ⟨hd.sk j, ?_⟩
        show ((deliver s i _).sk j).rcv = _ ∨ _
        by_cases hj : j = i
        · subst hj
          rcases hdr.2.1 with h | h
          · exact .inl h
          · exact .inr ⟨⟨_, ⟨b.id, rfl⟩, h⟩, ha, rfl, by rw [if_neg hg]⟩
        · exact .inl (hdr.1 hj)

/-- **C117 (partial).**  If every socket the datagram is for shares its port, packet copies can be made, and the socket
has room and no event callback: each of them gets it, once. -/
theorem group_delivery_partial (e : Env) (s : St) (b : Buf) (ha : Accepted e b)
    (hg : (multicast b.dst || broadcast b.dst) = true) (hs : ∀ i, Wanted s b i → Shares s i)
    (hc : ∀ x, e.copyOk x = true) (j : Nat) (hj : j < s.tab.next) (hw : Wanted s b j)
    (ht : ∀ x, (s.sk j).takes x = false) (hr : (s.sk j).rcv.length < room) :
    (input e s b).1 = .processed ∧
    ∃ q, Copy b (sockaddr b.src b.sport) q ∧ ((input e s b).2.sk j).rcv = (s.sk j).rcv ++ [q] := by
  have hi := input_group e s b ha hg
  simp only at hi
  have hmem : j ∈ receivers s b (pcbList s.tab) :=
    receivers_all s b _ hs j ((mem_pcbList s.tab j).2 hj) hw
  rcases list_cases (receivers s b (pcbList s.tab)) with hl | ⟨l', k, hl⟩
  · rw [hl] at hmem; cases hmem
  · have hin := hi.2 l' k hl
    rw [hl] at hmem
    have hnd : (l' ++ [k]).Nodup := hl ▸ (pcbList_nodup s.tab).sublist (receivers_sub s b _)
    have hk : k ∉ l' := fun hm => by
      have := (List.nodup_append.1 hnd).2.2 k hm k (List.mem_singleton.2 rfl)
      exact this rfl
    have hl'n := (List.nodup_append.1 hnd).1
    rw [hin]
    refine ⟨rfl, ?_⟩
    have hcr := copies_rcv e.copyOk b (sockaddr b.src b.sport) l' hl'n j s
    have hdr := deliver_rcv (copies e.copyOk b (sockaddr b.src b.sport) l' s) k (b.save (sockaddr b.src b.sport)) j
    show ∃ q, _ ∧ ((deliver (copies _ _ _ l' s) k _).sk j).rcv = _
    by_cases hjk : j = k
    · subst hjk
      have hlt := (copies_like e.copyOk b (sockaddr b.src b.sport) l' s).takes j
      have := hdr.2.2 (by rw [hlt]; exact ht _) (by rw [hcr.1 hk]; exact hr)
      rw [hcr.1 hk] at this
      exact ⟨_, ⟨b.id, rfl⟩, this⟩
    · rw [hdr.1 hjk]
      have hm : j ∈ l' := by
        rcases List.mem_append.1 hmem with h | h
        · exact h
        · exact absurd (List.mem_singleton.1 h) hjk
      exact hcr.2.2 hm hc ht hr

/-- **C116 (the one receiver of a unicast datagram).** -/
theorem unicast_delivery (e : Env) (s : St) (b : Buf) (ha : Accepted e b)
    (hg : (multicast b.dst || broadcast b.dst) = false) (i : Nat)
    (hl : Pcb.lookupHash e.cfg s.tab b.src b.sport b.dst b.dport true = some i)
    (httl : (s.sk i).minttl ≤ b.ttl) (ht : (s.sk i).takes b.id = false) (hr : (s.sk i).rcv.length < room) :
    input e s b = (.processed, { s with
      sk := Pcb.upd s.sk i { s.sk i with rcv := (s.sk i).rcv ++ [b.save (sockaddr b.src b.sport)] } }) := by
  unfold input
  rw [if_neg ha.long, if_neg ha.port, if_neg (by rw [ha.sum]; exact Bool.false_ne_true)]
  show (if _ then _ else _) = _
  rw [if_neg (by rw [hg]; exact Bool.false_ne_true), hl]
  simp only
  rw [if_neg (by omega)]
  unfold append deliver
  rw [show (b.save (sockaddr b.src b.sport)).id = b.id from rfl, if_neg (by rw [ht]; exact Bool.false_ne_true), if_pos hr]

end Verif.Udp
