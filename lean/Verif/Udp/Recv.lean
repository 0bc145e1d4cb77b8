import Verif.Udp.Spec
/-! # Receiving: content of datagrams -/
namespace Verif.Udp

theorem getD_left (xs ys : List UInt8) (i : Nat) (h : i < xs.length) : (xs ++ ys).getD i 0 = xs.getD i 0 := by
  simp only [List.getD_eq_getElem?_getD, List.getElem?_append_left h]

theorem getD_right (xs ys : List UInt8) (i : Nat) (h : xs.length ≤ i) :
    (xs ++ ys).getD i 0 = ys.getD (i - xs.length) 0 := by
  simp only [List.getD_eq_getElem?_getD, List.getElem?_append_right h]

theorem b16_len (n : Nat) : (b16 n).length = 2 := rfl
theorem b32_len (n : Nat) : (b32 n).length = 4 := rfl
theorem sockaddr_len (a p : Nat) : (sockaddr a p).length = 16 := rfl

theorem b16_toNat (n : Nat) (h : n < 65536) :
    (UInt8.ofNat (n / 256)).toNat * 256 + (UInt8.ofNat (n % 256)).toNat = n := by
  simp only [UInt8.toNat_ofNat']; omega

/-- The address reported to the application names the sender. -/
theorem sockaddr_names (a p : Nat) (ha : a < 4294967296) (hp : p < 65536) : Names (sockaddr a p) a p := by
  refine ⟨_, _, _, _, _, _, _, rfl, rfl, (b16_toNat p hp).symm, ?_⟩
  have h1 := b16_toNat (a / 65536) (by omega)
  have h2 := b16_toNat (a % 65536) (by omega)
  generalize (UInt8.ofNat (a / 65536 / 256)).toNat = x at *
  generalize (UInt8.ofNat (a / 65536 % 256)).toNat = y at *
  generalize (UInt8.ofNat (a % 65536 / 256)).toNat = z at *
  generalize (UInt8.ofNat (a % 65536 % 256)).toNat = u at *
  omega

theorem Buf.be16_lt (b : Buf) (i : Nat) : b.be16 i < 65536 := by
  unfold Buf.be16
  have := (b.byte i).toNat_lt
  have := (b.byte (i + 1)).toNat_lt
  omega

theorem Buf.be32_lt (b : Buf) (i : Nat) : b.be32 i < 4294967296 := by
  unfold Buf.be32
  have := b.be16_lt i
  have := b.be16_lt (i + 2)
  omega

theorem save_whole (b : Buf) (sa : List UInt8) :
    (b.save sa).l2 ++ (b.save sa).l3 = sa ++ (b.l2 ++ b.l3).drop sa.length := by
  unfold Buf.save; simp [List.take_append_drop]

theorem save_l3_length (b : Buf) (sa : List UInt8) (h : sa.length ≤ b.l2.length + b.l3.length) :
    (b.save sa).l3.length = b.l3.length := by
  unfold Buf.save
  simp only [List.length_drop, List.length_append]
  omega

theorem save_byte (b : Buf) (sa : List UInt8) (h : sa.length ≤ b.l2.length + b.l3.length) (i : Nat)
    (hi : sa.length ≤ b.l2.length + i) : (b.save sa).byte i = b.byte i := by
  have hl := save_l3_length b sa h
  unfold Buf.byte
  have ha : (b.save sa).after = b.after := rfl
  rw [ha]
  by_cases hlt : i < b.l3.length
  · rw [getD_left _ _ _ (by omega), getD_left _ _ _ hlt]
    unfold Buf.save
    simp only [List.getD_eq_getElem?_getD, List.getElem?_drop]
    rw [List.getElem?_append_right (by omega), List.getElem?_drop,
      show sa.length + (b.l2.length + i - sa.length) = b.l2.length + i by omega,
      List.getElem?_append_right (by omega), show b.l2.length + i - b.l2.length = i by omega]
  · rw [getD_right _ _ _ (by omega), getD_right _ _ _ (by omega), hl]

theorem read_eq (b : Buf) (i n : Nat) (h : i + n ≤ b.l3.length) : b.read i n = (b.l3.drop i).take n := by
  unfold Buf.read Buf.byte
  apply List.ext_getElem
  · simp; omega
  · intro k h1 h2
    rw [List.getElem_map, List.getElem_range, List.getElem_take, List.getElem_drop]
    have : k < n := by simpa using h1
    rw [getD_left _ _ _ (by omega), List.getD_eq_getElem?_getD, List.getElem?_eq_getElem (by omega)]
    rfl

theorem read_congr (a b : Buf) (i n : Nat) (h : ∀ k, i ≤ k → a.byte k = b.byte k) : a.read i n = b.read i n := by
  unfold Buf.read
  apply List.map_congr_left
  intro k _
  exact h _ (by omega)

theorem claimed_whole (b : Buf) (h : Whole b) : b.claimed = b.ulen - 8 := by
  have h8 := h.hdr
  have : b.ulen < 65536 := by
    unfold Buf.ulen Buf.be16
    have := (b.byte (b.hlen + 4)).toNat_lt
    have := (b.byte (b.hlen + 4 + 1)).toNat_lt
    omega
  unfold Buf.claimed
  rw [h.parser]
  show (b.ulen + _ - 8) % _ = _
  omega

/-- **C115 (receiving).**  A complete datagram put in the receive buffer of a socket by the input function, read when
it is at the head: exactly its data (as much as fits), and the address of its sender; nothing else in the state
changes but that the packet is gone and its buffer free. -/
theorem recvfrom_exact (s : St) (i n : Nat) (b : Buf) (q : List Buf) (hw : Whole b)
    (hq : (s.sk i).rcv = b.save (sockaddr b.src b.sport) :: q) :
    (recvfrom s i n).1 = some ⟨b.payload.take n, sockaddr b.src b.sport⟩ ∧
    (recvfrom s i n).2 = { s with sk := Pcb.upd s.sk i { s.sk i with rcv := q }, freed := s.freed ++ [b.id] } := by
  have hsa := sockaddr_len b.src b.sport
  have hl := hw.len
  have h20 := hw.ihl
  have h8 := hw.hdr
  have hfit : (sockaddr b.src b.sport).length ≤ b.l2.length + b.l3.length := by omega
  generalize hd : sockaddr b.src b.sport = sa at *
  have hbyte : ∀ k, b.hlen ≤ k → (b.save sa).byte k = b.byte k := fun k hk => save_byte b sa hfit k (by omega)
  have h4 : (b.save sa).l4 = b.hlen := hw.parser
  have hcl : (b.save sa).claimed = b.ulen - 8 := by
    rw [← claimed_whole b hw]
    unfold Buf.claimed Buf.be16
    rw [h4, hw.parser, hbyte _ (by omega), hbyte _ (by omega)]
  have hhead : ((b.save sa).l2 ++ (b.save sa).l3).take (((b.save sa).l2 ++ (b.save sa).l3).headD 0).toNat = sa := by
    rw [save_whole]
    have : ((sa ++ (b.l2 ++ b.l3).drop sa.length).headD 0).toNat = 16 := by rw [← hd]; rfl
    rw [this]
    rw [List.take_append_of_le_length (by omega), List.take_of_length_le (by omega)]
  have hdata : ∀ m, m ≤ b.ulen - 8 → (b.save sa).read ((b.save sa).l4 + 8) m = b.payload.take m := by
    intro m hm
    rw [h4, read_congr _ b _ _ (fun k hk => hbyte k (by omega)), read_eq _ _ _ (by omega)]
    unfold Buf.payload
    rw [List.take_take, Nat.min_eq_left hm]
  unfold recvfrom
  rw [hq]
  refine ⟨?_, rfl⟩
  show some (Got.mk _ _) = _
  rw [hcl, hhead]
  by_cases h : b.ulen - 8 > n
  · rw [if_pos h, hdata _ (by omega)]
  · rw [if_neg h, hdata _ (Nat.le_refl _)]
    have : b.payload.length ≤ b.ulen - 8 := by unfold Buf.payload; simp; omega
    rw [List.take_of_length_le this, List.take_of_length_le (by omega)]

end Verif.Udp
