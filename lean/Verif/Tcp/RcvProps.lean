import Verif.Tcp.RcvLemmas
/-! # C30, C31: the TCP receive path -/
namespace Verif.Tcp
open Verif.Sockbuf (Pkt)

/-! ## Where packets go -/

theorem append_places (s : Rcv) (p : Pkt) (i : Nat) :
    places (s.append p) i = places s i + [p.id].count i := by
  unfold Rcv.append Rcv.free places
  split
  · simp only [List.count_append]; omega
  · split
    · simp only [List.map_append, List.count_append, List.map_cons, List.map_nil]; omega
    · simp only [List.count_append]; omega

theorem append_segq (s : Rcv) (p : Pkt) : (s.append p).segq = s.segq ∧ (s.append p).nxt = s.nxt ∧
    (s.append p).phase = s.phase ∧ (s.append p).segqlen = s.segqlen ∧ (s.append p).cantrcv = s.cantrcv ∧
    (s.append p).readBytes = s.readBytes := by
  unfold Rcv.append Rcv.free
  split
  · exact ⟨rfl, rfl, rfl, rfl, rfl, rfl⟩
  · split <;> exact ⟨rfl, rfl, rfl, rfl, rfl, rfl⟩

theorem fold_places (l : List QEnt) : ∀ (s : Rcv) (i : Nat),
    places (l.foldl (fun s q => s.append q.pkt) s) i = places s i + (l.map fun q => q.pkt.id).count i := by
  induction l with
  | nil => intro s i; simp
  | cons q l ih =>
    intro s i
    rw [List.foldl_cons, ih, append_places, List.map_cons, List.count_cons, List.count_cons, List.count_nil]
    omega

theorem fold_segq (l : List QEnt) : ∀ (s : Rcv), (l.foldl (fun s q => s.append q.pkt) s).segq = s.segq ∧
    (l.foldl (fun s q => s.append q.pkt) s).nxt = s.nxt ∧ (l.foldl (fun s q => s.append q.pkt) s).phase = s.phase ∧
    (l.foldl (fun s q => s.append q.pkt) s).segqlen = s.segqlen ∧
    (l.foldl (fun s q => s.append q.pkt) s).cantrcv = s.cantrcv ∧
    (l.foldl (fun s q => s.append q.pkt) s).readBytes = s.readBytes := by
  induction l with
  | nil => intro s; exact ⟨rfl, rfl, rfl, rfl, rfl, rfl⟩
  | cons q l ih =>
    intro s
    rw [List.foldl_cons]
    have h := append_segq s q.pkt
    obtain ⟨a, b, c, d, e, f⟩ := ih (s.append q.pkt)
    exact ⟨a.trans h.1, b.trans h.2.1, c.trans h.2.2.1, d.trans h.2.2.2.1, e.trans h.2.2.2.2.1, f.trans h.2.2.2.2.2⟩

theorem present_places (s : Rcv) (i : Nat) : places (present s).1 i = places s i := by
  unfold present
  split
  · rfl
  · simp only
    rw [fold_places]
    have h := presentLoop_split s.nxt false s.segq
    have h2 := congrArg (fun l : List QEnt => (l.map fun q => q.pkt.id).count i) h
    simp only [List.map_append, List.count_append] at h2
    unfold places
    simp only
    omega

theorem reass_places (c : Cfg) (s : Rcv) (seq : BitVec 32) (tlen : Nat) (fin : Bool) (m : Pkt) (zone : Bool) (i : Nat) :
    places (reass c s seq tlen fin m zone).1 i = places s i + [m.id].count i := by
  have hfree : ∀ s : Rcv, places (s.free m) i = places s i + [m.id].count i := by
    intro s; unfold Rcv.free places; simp only [List.count_append]; omega
  unfold reass
  simp only
  split
  · exact hfree s
  · split
    · exact hfree s
    · split
      · rw [present_places, ← hfree s]; rfl
      · rw [present_places]
        simp only [places, List.map_append, List.map_cons, List.count_append, List.count_cons, List.count_nil, pull]
        have h1 := congrArg (fun l : List QEnt => (l.map fun q => q.pkt.id).count i)
          (List.takeWhile_append_dropWhile (p := fun q => !seqGT q.seq seq) (l := s.segq)).symm
        generalize overlap (s.segq.takeWhile fun q => !seqGT q.seq seq) seq = k
        have h2 := congrArg (List.count i) (trimSucc_ids (seq + BitVec.ofNat 32 k.toNat +
          BitVec.ofNat 32 (tlen - k.toNat)) (s.segq.dropWhile fun q => !seqGT q.seq seq))
        simp only [List.map_append, List.count_append] at h1 h2
        omega

theorem finStep_places (s : Rcv) (i : Nat) : places (finStep s) i = places s i := rfl

theorem dodata_places (c : Cfg) (s : Rcv) (seq : BitVec 32) (tlen : Nat) (thfin hfin : Bool) (m : Pkt) (zone : Bool)
    (i : Nat) : places (dodata c s seq tlen thfin hfin m zone) i = places s i + [m.id].count i := by
  have hfree : ∀ s : Rcv, places (s.free m) i = places s i + [m.id].count i := by
    intro s; unfold Rcv.free places; simp only [List.count_append]; omega
  unfold dodata
  split
  · exact hfree s
  · split
    · split
      · split
        · simp only
          split
          · rw [finStep_places, append_places]; rfl
          · rw [append_places]; rfl
        · simp only
          split
          · rw [finStep_places, reass_places]
          · rw [reass_places]
      · exact hfree s
    · exact hfree s

theorem free_places (s : Rcv) (m : Pkt) (i : Nat) : places (s.free m) i = places s i + [m.id].count i := by
  unfold Rcv.free places; simp only [List.count_append]; omega

theorem afterTrim_places (c : Cfg) (s : Rcv) (seq : BitVec 32) (tlen : Nat) (thfin hfin : Bool) (m : Pkt)
    (ack zone : Bool) (i : Nat) :
    places (afterTrim c s seq tlen thfin hfin m ack zone) i = places s i + [m.id].count i := by
  unfold afterTrim
  split
  · simp only
    split
    · rw [free_places, present_places]; rfl
    · rw [dodata_places]; rfl
  · rw [dodata_places]

theorem trimRight_places (c : Cfg) (s : Rcv) (seq : BitVec 32) (tlen : Nat) (thfin hfin : Bool) (m : Pkt) (wnd : Nat)
    (ack zone : Bool) (i : Nat) :
    places (trimRight c s seq tlen thfin hfin m wnd ack zone) i = places s i + [m.id].count i := by
  unfold trimRight
  simp only
  split
  · split
    · rw [free_places]
    · rw [afterTrim_places]
  · rw [afterTrim_places]

/-- **C31, conservation.** Whatever the state and the segment: the packet of the segment ends up in exactly one
place - reassembly queue, socket buffer or freed - and no other packet is lost or duplicated. -/
theorem packets_conserved (c : Cfg) (s : Rcv) (g : Seg) (i : Nat) :
    places (segment c s g) i = places s i + [g.id].count i := by
  unfold segment
  simp only
  split
  · rw [append_places]; rfl
  · unfold trimLeft
    simp only
    split
    · split
      · rw [trimRight_places]; rfl
      · rw [trimRight_places]; rfl
    · rw [trimRight_places]

theorem readBuf_ids : ∀ (b : List Pkt) (n i : Nat), (b.map Pkt.id).count i =
    ((readBuf n b).2.1.map Pkt.id).count i + (readBuf n b).2.2.count i := by
  intro b
  induction b with
  | nil => intro n i; cases n <;> rfl
  | cons p ps ih =>
    intro n i
    cases n with
    | zero => simp [readBuf]
    | succ n =>
      rw [readBuf]
      split
      · simp [pull]
      · simp only [List.map_cons, List.count_cons]
        rw [ih (n + 1 - p.data.length) i]
        omega

/-- Reading frees exactly the packets it takes out of the buffer. -/
theorem read_conserved (s : Rcv) (n i : Nat) : places (appRead s n) i = places s i := by
  unfold appRead places
  have := readBuf_ids s.buf n i
  simp only [List.count_append]
  omega

/-- **C31 is false on close**: `ofp_tcp_reass_flush` forgets the packets of the queue; they are neither freed nor
held by anybody afterwards. -/
theorem flush_leaks_violated (s : Rcv) (i : Nat) (hq : 0 < (s.segq.map fun q => q.pkt.id).count i) :
    places (flushq s) i < places s i := by
  unfold flushq places
  simp only [List.map_nil, List.count_nil]
  omega

end Verif.Tcp
