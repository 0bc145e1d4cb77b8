import Verif.Tcpopt.Lemmas
/-! # TCP options: the theorems -/
namespace Verif.Tcpopt

/-! ## The reader -/

/-- Whatever the items, what stops them and what follows the option area, `tcp_dooptions` stays inside the
buffer and leaves exactly the options of the items. -/
theorem reader_meaning (syn dosack : Bool) (items : List Item) (rest tail : List Nat)
    (hv : ∀ i ∈ items, i.Valid) (hr : Stops rest) :
    ∃ r, doOptions syn dosack (areaBytes items ++ rest ++ tail) (areaBytes items ++ rest).length = some r ∧
      see (areaBytes items ++ rest ++ tail) r = some (meaning syn dosack items) := by
  have h := parse_items syn dosack tail rest hr items hv [] .init ⟨none, none, false, none, none⟩
    (by simp [see, In.init])
  simp only [List.nil_append, List.length_nil] at h
  obtain ⟨r, h1, h2⟩ := h
  refine ⟨r, h1, ?_⟩
  rw [h2, foldl_got]
  cases syn <;> simp [meaning]

/-- **C62.**  For every byte string `buf` and every option area inside it, the area is a sequence of items and
something that stops a reader, and `tcp_dooptions` returns the options of those items without reading
outside `buf`. -/
theorem reader_total (syn dosack : Bool) (buf : List Nat) (cnt : Nat) (hc : cnt ≤ buf.length) :
    ∃ items rest r, (∀ i ∈ items, Item.Valid i) ∧ Stops rest ∧ buf.take cnt = areaBytes items ++ rest ∧
      doOptions syn dosack buf cnt = some r ∧ see buf r = some (meaning syn dosack items) := by
  obtain ⟨items, rest, hv, hr, he⟩ := area_exists _ (buf.take cnt) rfl
  obtain ⟨r, h1, h2⟩ := reader_meaning syn dosack items rest (buf.drop cnt) hv hr
  have hl : (areaBytes items ++ rest).length = cnt := by
    rw [← he, List.length_take]; omega
  rw [hl] at h1
  rw [← he, List.take_append_drop] at h1 h2
  exact ⟨items, rest, r, hv, hr, he, h1, h2⟩

/-- An area has one reading only: the items are determined by the bytes, so `reader_total` leaves no choice. -/
theorem area_unique : ∀ (is js : List Item) (r s : List Nat), (∀ i ∈ is, Item.Valid i) →
    (∀ i ∈ js, Item.Valid i) → Stops r → Stops s → areaBytes is ++ r = areaBytes js ++ s → is = js ∧ r = s
  | [], [], r, s, _, _, _, _, h => ⟨rfl, by simpa [areaBytes] using h⟩
  | [], .nop :: js, r, s, _, _, hr, _, h => by
    simp only [areaBytes, List.flatMap_nil, List.flatMap_cons, Item.bytes, List.nil_append,
      List.cons_append] at h
    subst h
    cases hx : (List.flatMap Item.bytes js ++ s) <;> rw [hx] at hr <;> simp [Stops] at hr
  | .nop :: js, [], r, s, _, _, _, hr, h => by
    simp only [areaBytes, List.flatMap_nil, List.flatMap_cons, Item.bytes, List.nil_append,
      List.cons_append] at h
    subst h
    cases hx : (List.flatMap Item.bytes js ++ r) <;> rw [hx] at hr <;> simp [Stops] at hr
  | [], .opt k b :: js, r, s, _, hj, hr, _, h => by
    have hk : 2 ≤ k := hj (.opt k b) (by simp)
    simp only [areaBytes, List.flatMap_nil, List.flatMap_cons, Item.bytes, List.nil_append,
      List.cons_append] at h
    subst h
    simp only [Stops, List.length_append] at hr
    omega
  | .opt k b :: js, [], r, s, hj, _, _, hr, h => by
    have hk : 2 ≤ k := hj (.opt k b) (by simp)
    simp only [areaBytes, List.flatMap_nil, List.flatMap_cons, Item.bytes, List.nil_append,
      List.cons_append] at h
    subst h
    simp only [Stops, List.length_append] at hr
    omega
  | .nop :: is, .nop :: js, r, s, hi, hj, hr, hs, h => by
    have := area_unique is js r s (fun i h => hi i (List.mem_cons_of_mem _ h))
      (fun i h => hj i (List.mem_cons_of_mem _ h)) hr hs (by simpa [areaBytes, Item.bytes] using h)
    simp [this]
  | .nop :: is, .opt k b :: js, r, s, hi, hj, hr, hs, h => by
    have hk : 2 ≤ k := hj (.opt k b) (by simp)
    simp only [areaBytes, List.flatMap_cons, Item.bytes, List.cons_append] at h
    have := (List.cons.inj h).1
    omega
  | .opt k b :: is, .nop :: js, r, s, hi, hj, hr, hs, h => by
    have hk : 2 ≤ k := hi (.opt k b) (by simp)
    simp only [areaBytes, List.flatMap_cons, Item.bytes, List.cons_append] at h
    have := (List.cons.inj h).1
    omega
  | .opt k b :: is, .opt k' b' :: js, r, s, hi, hj, hr, hs, h => by
    simp only [areaBytes, List.flatMap_cons, Item.bytes, List.cons_append, List.append_assoc] at h
    obtain ⟨h1, h2⟩ := List.cons.inj h
    obtain ⟨h2, h3⟩ := List.cons.inj h2
    obtain ⟨h3, h4⟩ := List.append_inj h3 (by omega)
    have := area_unique is js r s (fun i h => hi i (List.mem_cons_of_mem _ h))
      (fun i h => hj i (List.mem_cons_of_mem _ h)) hr hs h4
    simp [this, h1, h3]

/-- The SACK pointer a parse leaves behind stays inside the area. -/
def SacksIn (lim : Nat) (r : In) : Prop := ∀ off n, r.sacks = some (off, n) → off + n * 8 ≤ lim ∧ 1 ≤ n ∧ 2 ≤ off

theorem takeOption_sacks (syn dosack : Bool) (buf : List Nat) (cp opt optlen lim : Nat) (st r : In)
    (hl : cp + optlen ≤ lim) (hs : SacksIn lim st)
    (h : takeOption syn dosack buf cp opt optlen st = some r) : SacksIn lim r := by
  unfold takeOption at h
  repeat' split at h
  all_goals
    first
    | (simp only [Option.map_eq_some_iff] at h; obtain ⟨_, _, rfl⟩ := h; exact hs)
    | (simp only [Option.some.injEq] at h; subst h; exact hs)
    | (simp only [Option.some.injEq] at h; subst h
       intro o n he
       simp only [Option.some.injEq, Prod.mk.injEq] at he
       obtain ⟨rfl, rfl⟩ := he
       omega)
    | exact absurd h (by simp)

theorem parse_sacks (syn dosack : Bool) (buf : List Nat) (cp cnt : Nat) (st : In) : ∀ (lim : Nat) (r : In),
    cp + cnt ≤ lim → SacksIn lim st → parse syn dosack buf cp cnt st = some r → SacksIn lim r := by
  induction cnt using Nat.strong_induction_on generalizing cp st with
  | _ cnt ih =>
    intro lim r hl hs h
    unfold parse at h
    split at h
    · simp only [Option.some.injEq] at h; subst h; exact hs
    · split at h
      · exact absurd h (by simp)
      · split at h
        · simp only [Option.some.injEq] at h; subst h; exact hs
        · split at h
          · split at h
            · exact absurd h (by simp)
            · rename_i st' ht
              exact ih (cnt - 1) (by omega) (cp + 1) st' lim r (by omega)
                (takeOption_sacks _ _ _ _ _ _ lim _ _ (by omega) hs ht) h
          · split at h
            · simp only [Option.some.injEq] at h; subst h; exact hs
            · split at h
              · exact absurd h (by simp)
              · split at h
                · simp only [Option.some.injEq] at h; subst h; exact hs
                · split at h
                  · exact absurd h (by simp)
                  · rename_i optlen _ hb _ st' ht
                    exact ih (cnt - optlen) (by omega) (cp + optlen) st' lim r (by omega)
                      (takeOption_sacks _ _ _ _ _ _ lim _ _ (by omega) hs ht) h

/-- **C63.**  The SACK blocks `tcp_dooptions` points its caller to lie inside the option area, and a TCP header
(at most 40 bytes of options) never yields more than the four for which `ofp_tcp_sack_doack` reserves
`sack_blocks[OFP_TCP_MAX_SACK + 1]`. -/
theorem sacks_bounded (syn dosack : Bool) (buf : List Nat) (cnt : Nat) (r : In) (off n : Nat)
    (h : doOptions syn dosack buf cnt = some r) (hs : r.sacks = some (off, n)) :
    1 ≤ n ∧ off + n * 8 ≤ cnt ∧ (cnt ≤ 40 → n ≤ 4) := by
  have := parse_sacks syn dosack buf 0 cnt .init cnt r (by omega)
    (by intro o m he; simp [In.init] at he) h off n hs
  omega

example : doOptions false true [1, 1, 5, 10, 0, 0, 0, 1, 0, 0, 0, 2] 12 =
    some ⟨none, none, false, none, some (4, 1)⟩ := by
  decide +kernel

/-! ## The writer -/

/-- The fields have the widths of `struct tcpopt`. -/
def Out.Wf (o : Out) : Prop :=
  (∀ m, o.mss = some m → m < 65536) ∧ (∀ s, o.scale = some s → s < 256) ∧
  (∀ v e, o.ts = some (v, e) → v < 4294967296 ∧ e < 4294967296) ∧
  (∀ bl, o.sacks = some bl → bl.length < 256 ∧ ∀ b ∈ bl, b.start < 4294967296 ∧ b.stop < 4294967296)

theorem flatMap_len (bl : List Blk) : (bl.flatMap blkBytes).length = bl.length * 8 := by
  induction bl with
  | nil => rfl
  | cons b bl ih => rw [List.flatMap_cons, List.length_append, ih]; simp [blkBytes, be32]; omega

theorem noRoom_iff (q n : Nat) (h : q ≤ 40) : noRoom q n = decide (40 - q < n) := by
  have : (maxOlen + (18446744073709551616 - q)) % 18446744073709551616 = 40 - q := by
    unfold maxOlen; omega
  unfold noRoom
  rw [this]

theorem put_opt (w : W) (n : Nat) (b : List Nat) : (w.put n b).optlen = w.optlen + n := rfl
theorem put_bytes (w : W) (n : Nat) (b : List Nat) : (w.put n b).bytes = w.bytes ++ b := rfl

/-- **C64.**  Whatever options are asked for, `ofp_tcp_addoptions` writes exactly as many bytes as it returns,
never more than the 40 of a TCP header, and a multiple of four. -/
theorem writer_bounds (o : Out) :
    (addOptions o).bytes.length = (addOptions o).optlen ∧ (addOptions o).optlen ≤ 40 ∧
      (addOptions o).optlen % 4 = 0 := by
  obtain ⟨mss, scale, sp, ts, sig, sacks⟩ := o
  rcases sacks with _ | bl
  · rcases mss with _ | m <;> rcases scale with _ | s <;> rcases sp with _ | _ <;> rcases ts with _ | ⟨v, e⟩ <;>
      rcases sig with _ | _ <;>
      simp [addOptions, addMss, addScale, addSackPerm, addTs, addSig, addSack, finish, emit, padWhile, W.put,
        noRoom, c4, c2, cScale, cTs, maxOlen, be16, be32]
  · have key : ∀ w : W, w.bytes.length = w.optlen → w.optlen ≤ 40 → (w.optlen % 4 = 0 ∨ w.optlen % 4 = 2) →
        ∀ u, addSack ⟨mss, scale, sp, ts, sig, some bl⟩ w = u →
        u.bytes.length = u.optlen ∧ u.optlen ≤ 40 ∧ (u.optlen % 4 = 0 ∨ u.optlen % 4 = 2) := by
      intro w h1 h2 h3 u hu
      have hx : ∃ p : W, padWhile cTs 1 4 w = p ∧ (w.optlen ≠ 40 → p.bytes.length = p.optlen ∧ p.optlen ≤ 40 ∧
          p.optlen % 4 = 2) := by
        refine ⟨_, rfl, fun h4 => ?_⟩
        by_cases h0 : w.optlen = 0
        · simp [padWhile, W.put, cTs, h0, h1]
        · rcases h3 with h3 | h3
          · have a1 : (w.optlen + 1) % 4 = 1 := by omega
            have a2 : (w.optlen + 1 + 1) % 4 = 2 := by omega
            simp only [padWhile, W.put, cTs, h0, h3, a1, a2]
            simp [h1]; omega
          · simp [padWhile, cTs, h0, h3, h1]; omega
      obtain ⟨p, hp, hq⟩ := hx
      unfold addSack at hu
      simp only [hp] at hu
      by_cases h4 : w.optlen = 40
      · simp [h4, maxOlen] at hu
        subst hu; omega
      · have := hq h4
        rw [if_neg (by simpa [maxOlen] using h4)] at hu
        by_cases hn : noRoom p.optlen (2 + 8) = true
        · rw [if_pos hn] at hu; subst hu; omega
        · rw [if_neg hn] at hu
          subst hu
          rw [noRoom_iff _ _ (by omega)] at hn
          have hn' : ¬ (40 - p.optlen < 2 + 8) := by simpa using hn
          simp only [put_opt, put_bytes, List.length_append, flatMap_len, List.length_take,
            List.length_cons, List.length_nil, maxOlen]
          omega
    have fin : ∀ u : W, u.bytes.length = u.optlen → u.optlen ≤ 40 → (u.optlen % 4 = 0 ∨ u.optlen % 4 = 2) →
        (finish u).bytes.length = (finish u).optlen ∧ (finish u).optlen ≤ 40 ∧ (finish u).optlen % 4 = 0 := by
      intro u h1 h2 h3
      rcases h3 with h3 | h3
      · simp [finish, padWhile, c4, h3, h1, h2]
      · have a1 : (u.optlen + 1) % 4 = 3 := by omega
        have a2 : (u.optlen + 1 + 1) % 4 = 0 := by omega
        simp only [finish, padWhile, c4, h3, a1, a2, W.put]
        simp [h1, a1, a2]; omega
    unfold addOptions
    generalize hw : (addSig _ _) = w
    have : w.bytes.length = w.optlen ∧ w.optlen ≤ 40 ∧ (w.optlen % 4 = 0 ∨ w.optlen % 4 = 2) := by
      subst hw
      rcases mss with _ | m <;> rcases scale with _ | s <;> rcases sp with _ | _ <;>
      rcases ts with _ | ⟨v, e⟩ <;> rcases sig with _ | _ <;>
      simp [addMss, addScale, addSackPerm, addTs, addSig, emit, padWhile, W.put,
        noRoom, c4, c2, cScale, cTs, maxOlen, be16, be32]
    obtain ⟨h1, h2, h3⟩ := key w this.1 this.2.1 this.2.2 _ rfl
    exact fin _ h1 h2 h3

/-- The options of a SYN segment as the peer must see them. -/
def wantSyn (o : Out) : Got := ⟨o.mss, o.scale.map (min · 14), o.sackperm, o.ts, none⟩

theorem be16_num {n : Nat} (h : n < 65536) : n / 256 % 256 * 256 + n % 256 = n := by omega
theorem be32_num {n : Nat} (h : n < 4294967296) :
    n / 16777216 % 256 * 16777216 + n / 65536 % 256 * 65536 + n / 256 % 256 * 256 + n % 256 = n := by omega

/-- The items of a SYN segment (written down in the order of the bytes). -/
def synItems (o : Out) : List Item :=
  (match o.mss with | none => [] | some m => [.opt 2 (be16 m)]) ++
  (match o.scale with | none => [] | some s => [.nop, .opt 3 [s]]) ++
  (if o.sackperm then [.opt 4 []] else []) ++
  (match o.ts with
   | none => []
   | some (v, e) => (if o.sackperm then [] else [.nop, .nop]) ++ [.opt 8 (be32 v ++ be32 e)]) ++
  (if o.sig then
    (if o.sackperm && o.ts.isNone then [] else [.nop, .nop]) ++ [.opt 19 (List.replicate 16 0)] else [])

theorem syn_bytes (o : Out) (hs : o.sacks = none) :
    ∃ rest, (addOptions o).bytes = areaBytes (synItems o) ++ rest ∧ (rest = [] ∨ rest = [0, 0]) := by
  obtain ⟨mss, scale, sp, ts, sig, sacks⟩ := o
  simp only at hs
  subst hs
  rcases mss with _ | m <;> rcases scale with _ | s <;> rcases sp with _ | _ <;> rcases ts with _ | ⟨v, e⟩ <;>
      rcases sig with _ | _ <;>
      simp [addOptions, addMss, addScale, addSackPerm, addTs, addSig, addSack, finish, emit, padWhile, W.put,
        noRoom, c4, c2, cScale, cTs, maxOlen, be16, be32, synItems, areaBytes, Item.bytes]

/-- **C65.**  The options of every SYN or SYN-ACK segment survive the wire: whatever combination of maximum
segment size, window scale, SACK-permitted and timestamps is asked for, none is dropped for lack of room,
and the parser of the peer finds exactly those, the window scale cut to 14. -/
theorem syn_roundtrip (o : Out) (tail : List Nat) (hw : o.Wf) (hs : o.sacks = none) :
    ∃ r, doOptions true true ((addOptions o).bytes ++ tail) (addOptions o).optlen = some r ∧
      see ((addOptions o).bytes ++ tail) r = some (wantSyn o) := by
  obtain ⟨rest, hb, hr⟩ := syn_bytes o hs
  have hv : ∀ i ∈ synItems o, i.Valid := by
    obtain ⟨mss, scale, sp, ts, sig, sacks⟩ := o
    rcases mss with _ | m <;> rcases scale with _ | s <;> rcases sp with _ | _ <;> rcases ts with _ | ⟨v, e⟩ <;>
      rcases sig with _ | _ <;> simp [synItems, Item.Valid]
  have hst : Stops rest := by rcases hr with rfl | rfl <;> simp [Stops]
  have h := reader_meaning true true (synItems o) rest tail hv hst
  rw [← hb] at h
  rw [(writer_bounds o).1] at h
  obtain ⟨r, h1, h2⟩ := h
  refine ⟨r, h1, ?_⟩
  rw [h2]
  obtain ⟨w1, w2, w3, -⟩ := hw
  obtain ⟨mss, scale, sp, ts, sig, sacks⟩ := o
  simp only at w1 w2 w3
  have hm : ∀ m, mss = some m → num16 (be16 m) = some m := fun m h => by
    simp only [be16, num16, be16_num (w1 m h)]
  have ht : ∀ v e, ts = some (v, e) → two32 (be32 v ++ be32 e) = some (v, e) := fun v e h => by
    simp only [be32, two32, List.cons_append, List.nil_append, be32_num (w3 v e h).1, be32_num (w3 v e h).2]
  simp only [meaning, wantSyn, synItems, lastOf, if_true, Bool.true_and]
  rcases mss with _ | m <;> rcases scale with _ | s <;> rcases sp with _ | _ <;> rcases ts with _ | ⟨v, e⟩ <;>
    rcases sig with _ | _ <;> simp [hm, ht, shiftCount]

example : ∃ o : Out, o.Wf ∧ o.sacks = none ∧ o.mss = some 1460 ∧ o.scale = some 7 ∧ o.sackperm = true ∧
    o.ts = some (305419896, 1) ∧ (addOptions o).bytes =
      [2, 4, 5, 180, 1, 3, 3, 7, 4, 2, 8, 10, 18, 52, 86, 120, 0, 0, 0, 1] := by
  refine ⟨⟨some 1460, some 7, true, some (305419896, 1), false, none⟩, ?_, rfl, rfl, rfl, rfl, rfl, ?_⟩
  · refine ⟨?_, ?_, ?_, ?_⟩ <;> simp
  · decide +kernel

/-- How many SACK blocks of a segment without SYN fit behind its other options. -/
def sackRoom (ts sig : Bool) : Nat :=
  if ts && sig then 0 else if sig then 2 else if ts then 3 else 4

theorem blocks_flatMap : ∀ (bl : List Blk), (∀ b ∈ bl, b.start < 4294967296 ∧ b.stop < 4294967296) →
    blocks (bl.flatMap blkBytes) = some bl
  | [], _ => rfl
  | b :: bl, h => by
    have ih := blocks_flatMap bl (fun x hx => h x (List.mem_cons_of_mem _ hx))
    have hb := h b (by simp)
    simp only [List.flatMap_cons, blkBytes, be32, List.cons_append, List.nil_append, blocks]
    rw [ih]
    simp only [Option.map_some, be32_num hb.1, be32_num hb.2]

theorem someBlocks_flatMap (bl : List Blk) (h : ∀ b ∈ bl, b.start < 4294967296 ∧ b.stop < 4294967296)
    (hne : bl ≠ []) : someBlocks (bl.flatMap blkBytes) = some bl := by
  unfold someBlocks
  rw [if_neg, blocks_flatMap bl h]
  intro he
  have := flatMap_len bl
  rw [he] at this
  cases bl with
  | nil => exact hne rfl
  | cons => simp at this

/-- The items of a segment without SYN. -/
def dataItems (ts : Option (Nat × Nat)) (sig : Bool) (bl : List Blk) : List Item :=
  (match ts with | none => [] | some (v, e) => [.nop, .nop, .opt 8 (be32 v ++ be32 e)]) ++
  (if sig then [.nop, .nop, .opt 19 (List.replicate 16 0)] else []) ++
  [.nop, .nop] ++
  (if ts.isSome && sig then [] else [.opt 5 ((bl.take (sackRoom ts.isSome sig)).flatMap blkBytes)])

theorem data_bytes (ts : Option (Nat × Nat)) (sig : Bool) (bl : List Blk) :
    ∃ rest, (addOptions ⟨none, none, false, ts, sig, some bl⟩).bytes = areaBytes (dataItems ts sig bl) ++ rest ∧
      (rest = [] ∨ rest = [0, 0]) := by
  have h8 : ∀ n, (n * 8) % 4 = 0 := by omega
  have hm : ∀ k, (List.take k bl).length = min bl.length k := by
    intro k; rw [List.length_take, Nat.min_comm]
  have ht : ∀ k, List.take (min bl.length k) bl = List.take k bl := by
    intro k
    by_cases h : bl.length ≤ k
    · rw [Nat.min_eq_left h, List.take_of_length_le h]; simp
    · rw [Nat.min_eq_right (by omega)]
  have m1 : ∀ n, (4 + n * 8) % 4 = 0 := by omega
  have m2 : ∀ n, (16 + n * 8) % 4 = 0 := by omega
  have m3 : ∀ n, (24 + n * 8) % 4 = 0 := by omega
  rcases ts with _ | ⟨v, e⟩ <;> rcases sig with _ | _
  · refine ⟨[], ?_, Or.inl rfl⟩
    simp [addOptions, addMss, addScale, addSackPerm, addTs, addSig, addSack, finish, emit, padWhile, W.put,
        noRoom, c4, c2, cScale, cTs, maxOlen, be16, be32, dataItems, areaBytes, Item.bytes, sackRoom, flatMap_len, hm, ht,
        m1, m2, m3, -List.length_flatMap]
    omega
  · refine ⟨[], ?_, Or.inl rfl⟩
    simp [addOptions, addMss, addScale, addSackPerm, addTs, addSig, addSack, finish, emit, padWhile, W.put,
        noRoom, c4, c2, cScale, cTs, maxOlen, be16, be32, dataItems, areaBytes, Item.bytes, sackRoom, flatMap_len, hm, ht,
        m1, m2, m3, -List.length_flatMap]
    omega
  · refine ⟨[], ?_, Or.inl rfl⟩
    simp [addOptions, addMss, addScale, addSackPerm, addTs, addSig, addSack, finish, emit, padWhile, W.put,
        noRoom, c4, c2, cScale, cTs, maxOlen, be16, be32, dataItems, areaBytes, Item.bytes, sackRoom, flatMap_len, hm, ht,
        m1, m2, m3, -List.length_flatMap]
    omega
  · refine ⟨[0, 0], ?_, Or.inr rfl⟩
    simp [addOptions, addMss, addScale, addSackPerm, addTs, addSig, addSack, finish, emit, padWhile, W.put,
        noRoom, c4, c2, cScale, cTs, maxOlen, be16, be32, dataItems, areaBytes, Item.bytes, sackRoom]

/-- **C66.**  On a segment without SYN the timestamps always survive the wire, and of the SACK blocks the peer
finds the first four, three behind timestamps, in order and unchanged.  With the MD5 signature too (a
build option, off) two remain, and none behind timestamps and signature. -/
theorem data_roundtrip (dosack : Bool) (ts : Option (Nat × Nat)) (sig : Bool) (bl : List Blk) (tail : List Nat)
    (hw : Out.Wf ⟨none, none, false, ts, sig, some bl⟩) (hne : bl ≠ []) :
    ∃ r, doOptions false dosack ((addOptions ⟨none, none, false, ts, sig, some bl⟩).bytes ++ tail)
        (addOptions ⟨none, none, false, ts, sig, some bl⟩).optlen = some r ∧
      see ((addOptions ⟨none, none, false, ts, sig, some bl⟩).bytes ++ tail) r =
        some ⟨none, none, false, ts,
          if sackRoom ts.isSome sig = 0 then none else some (bl.take (sackRoom ts.isSome sig))⟩ := by
  obtain ⟨rest, hb, hr⟩ := data_bytes ts sig bl
  have hv : ∀ i ∈ dataItems ts sig bl, i.Valid := by
    rcases ts with _ | ⟨v, e⟩ <;> rcases sig with _ | _ <;> simp [dataItems, Item.Valid]
  have hst : Stops rest := by rcases hr with rfl | rfl <;> simp [Stops]
  have h := reader_meaning false dosack (dataItems ts sig bl) rest tail hv hst
  rw [← hb] at h
  rw [(writer_bounds _).1] at h
  obtain ⟨r, h1, h2⟩ := h
  refine ⟨r, h1, ?_⟩
  rw [h2]
  obtain ⟨-, -, w3, w4⟩ := hw
  have hbk : ∀ k, k ≠ 0 → someBlocks ((bl.take k).flatMap blkBytes) = some (bl.take k) := by
    intro k hk
    refine someBlocks_flatMap _ (fun b hb => (w4 bl rfl).2 b (List.mem_of_mem_take hb)) ?_
    intro he
    rcases List.take_eq_nil_iff.1 he with h | h
    · exact hk h
    · exact hne h
  have ht : ∀ v e, ts = some (v, e) →
      v / 16777216 % 256 * 16777216 + v / 65536 % 256 * 65536 + v / 256 % 256 * 256 + v % 256 = v ∧
      e / 16777216 % 256 * 16777216 + e / 65536 % 256 * 65536 + e / 256 % 256 * 256 + e % 256 = e :=
    fun v e h => ⟨be32_num (w3 v e h).1, be32_num (w3 v e h).2⟩
  have k4 := hbk 4 (by omega)
  have k3 := hbk 3 (by omega)
  have k2 := hbk 2 (by omega)
  rcases ts with _ | ⟨v, e⟩ <;> rcases sig with _ | _
  · simp [meaning, dataItems, lastOf, sackRoom, k4]
  · simp [meaning, dataItems, lastOf, sackRoom, k2]
  · have := ht v e rfl
    simp [meaning, dataItems, lastOf, sackRoom, two32, be32, k3, this]
  · have := ht v e rfl
    simp [meaning, dataItems, lastOf, sackRoom, two32, be32, this]

example : Out.Wf ⟨none, none, false, some (1, 2), false, some [⟨10, 20⟩, ⟨30, 40⟩, ⟨50, 60⟩, ⟨70, 80⟩]⟩ := by
  refine ⟨?_, ?_, ?_, ?_⟩ <;> simp

/-- The comment of `ofp_tcp_addoptions` (src/ofp_tcp_output.c:1416-1421) counts on room for one SACK block
behind timestamps and signature; the alignment padding takes it.  Asked for all three, the function writes
no SACK block at all. -/
theorem sack_with_ts_and_sig_violated (v e : Nat) (bl : List Blk)
    (hw : Out.Wf ⟨none, none, false, some (v, e), true, some bl⟩) (hne : bl ≠ []) :
    ∃ r, doOptions false true (addOptions ⟨none, none, false, some (v, e), true, some bl⟩).bytes
        (addOptions ⟨none, none, false, some (v, e), true, some bl⟩).optlen = some r ∧ r.sacks = none := by
  obtain ⟨r, h1, h2⟩ := data_roundtrip true (some (v, e)) true bl [] hw hne
  rw [List.append_nil] at h1 h2
  refine ⟨r, h1, ?_⟩
  unfold see at h2
  cases hs : r.sacks with
  | none => rfl
  | some p => obtain ⟨o, n⟩ := p; rw [hs] at h2; simp [sackRoom] at h2

example : Out.Wf ⟨none, none, false, some (1, 2), true, some [⟨10, 20⟩]⟩ := by
  refine ⟨?_, ?_, ?_, ?_⟩ <;> simp

end Verif.Tcpopt
