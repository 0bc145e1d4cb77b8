import Verif.Tcpopt.Spec
import Mathlib.Tactic.Linarith
/-! # The reader, every byte string -/
namespace Verif.Tcpopt

/-- One item, as a step of the reader's result. -/
def stepGot (syn dosack : Bool) (g : Got) : Item → Got
  | .nop => g
  | .opt k body => {
      mss := if syn = true ∧ k = 2 then (num16 body).or g.mss else g.mss
      scale := if syn = true ∧ k = 3 then (shiftCount body).or g.scale else g.scale
      sackperm := g.sackperm || (syn && dosack && (k = 4 && body = []))
      ts := if k = 8 then (two32 body).or g.ts else g.ts
      sacks := if syn = false ∧ k = 5 then (someBlocks body).or g.sacks else g.sacks }

theorem lastOf_cons_nop {α : Type} (k : Nat) (f : List Nat → Option α) (is : List Item) :
    lastOf k f (.nop :: is) = lastOf k f is := rfl

theorem lastOf_cons_opt {α : Type} (k k' : Nat) (body : List Nat) (f : List Nat → Option α) (is : List Item) :
    lastOf k f (.opt k' body :: is) = (lastOf k f is).or (if k' = k then f body else none) := by
  unfold lastOf
  simp only [List.filterMap_cons]
  cases h : (if k' = k then f body else none) with
  | none => simp
  | some a =>
    simp only [List.getLast?_cons]
    cases (List.filterMap _ is).getLast? <;> rfl

theorem foldl_got (syn dosack : Bool) (is : List Item) : ∀ g : Got,
    is.foldl (stepGot syn dosack) g = {
      mss := if syn then (lastOf 2 num16 is).or g.mss else g.mss
      scale := if syn then (lastOf 3 shiftCount is).or g.scale else g.scale
      sackperm := g.sackperm || (syn && dosack && (is.any fun i => i = .opt 4 []))
      ts := (lastOf 8 two32 is).or g.ts
      sacks := if syn then g.sacks else (lastOf 5 someBlocks is).or g.sacks } := by
  induction is with
  | nil => intro g; cases syn <;> simp [lastOf]
  | cons i is ih =>
    intro g
    rw [List.foldl_cons, ih]
    cases i with
    | nop => simp [stepGot, lastOf_cons_nop]
    | opt k body =>
      simp only [lastOf_cons_opt, stepGot]
      cases syn <;> cases dosack <;> simp [Option.or_assoc] <;>
        (repeat' constructor) <;> (try split) <;> simp_all [Option.or_assoc, Bool.or_assoc]

theorem getAt (pre suf : List Nat) (i : Nat) : (pre ++ suf)[pre.length + i]? = suf[i]? := by
  rw [List.getElem?_append_right (by omega)]; congr 1; omega

theorem rd16At (pre suf : List Nat) (i : Nat) : rd16 (pre ++ suf) (pre.length + i) = rd16 suf i := by
  unfold rd16; rw [getAt, Nat.add_assoc, getAt]

theorem rd32At (pre suf : List Nat) (i : Nat) : rd32 (pre ++ suf) (pre.length + i) = rd32 suf i := by
  unfold rd32
  simp only [Nat.add_assoc, getAt]

theorem readBlocksAt (pre suf : List Nat) : ∀ n i,
    readBlocks (pre ++ suf) (pre.length + i) n = readBlocks suf i n
  | 0, _ => rfl
  | n + 1, i => by
    have h0 : sackAt (pre ++ suf) (pre.length + i) 0 = sackAt suf i 0 := by
      unfold sackAt
      have h1 := rd32At pre suf (i + 0 * 8)
      have h2 := rd32At pre suf (i + 0 * 8 + 4)
      simp only [← Nat.add_assoc] at h1 h2
      rw [h1, h2]
    unfold readBlocks
    rw [h0, Nat.add_assoc, readBlocksAt pre suf n (i + 8)]

theorem blocks_length : ∀ (body : List Nat) (bl : List Blk), blocks body = some bl → body.length = bl.length * 8
  | [], bl, h => by simp [blocks] at h; subst h; rfl
  | a :: b :: c :: d :: e :: f :: g :: i :: more, bl, h => by
    simp only [blocks, Option.map_eq_some_iff] at h
    obtain ⟨x, hx, rfl⟩ := h
    have := blocks_length more x hx
    simp only [List.length_cons]; omega
  | [_], _, h => by simp [blocks] at h
  | [_, _], _, h => by simp [blocks] at h
  | [_, _, _], _, h => by simp [blocks] at h
  | [_, _, _, _], _, h => by simp [blocks] at h
  | [_, _, _, _, _], _, h => by simp [blocks] at h
  | [_, _, _, _, _, _], _, h => by simp [blocks] at h
  | [_, _, _, _, _, _, _], _, h => by simp [blocks] at h

theorem blocks_none : ∀ (body : List Nat), blocks body = none → body.length % 8 ≠ 0
  | [], h => by simp [blocks] at h
  | a :: b :: c :: d :: e :: f :: g :: i :: more, h => by
    simp only [blocks, Option.map_eq_none_iff] at h
    have := blocks_none more h
    simp only [List.length_cons]; omega
  | [_], _ => by simp
  | [_, _], _ => by simp
  | [_, _, _], _ => by simp
  | [_, _, _, _], _ => by simp
  | [_, _, _, _, _], _ => by simp
  | [_, _, _, _, _, _], _ => by simp
  | [_, _, _, _, _, _, _], _ => by simp

theorem readBlocks_blocks : ∀ (bl : List Blk) (body suf : List Nat), blocks body = some bl →
    readBlocks (body ++ suf) 0 bl.length = some bl
  | [], body, suf, h => rfl
  | b :: bl, body, suf, h => by
    have hl := blocks_length _ _ h
    simp only [List.length_cons] at hl
    match body, hl, h with
    | a :: b' :: c :: d :: e :: f :: g :: i :: more, hl, h =>
      simp only [blocks, Option.map_eq_some_iff] at h
      obtain ⟨x, hx, he⟩ := h
      obtain ⟨rfl, rfl⟩ := List.cons.inj he
      have ih := readBlocks_blocks x more suf hx
      have hs := readBlocksAt [a, b', c, d, e, f, g, i] (more ++ suf) x.length 0
      simp only [List.length_cons, List.length_nil, Nat.add_zero, Nat.zero_add] at hs
      rw [ih] at hs
      unfold readBlocks
      have hc : [a, b', c, d, e, f, g, i] ++ (more ++ suf) =
        a :: b' :: c :: d :: e :: f :: g :: i :: more ++ suf := rfl
      rw [hc] at hs
      simp only [List.length_cons, Nat.zero_add]
      rw [hs]
      simp [sackAt, rd32]

theorem see_none {buf : List Nat} {r : In} {g : Got} (h : see buf r = some g) (f : Got → Got)
    {r' : In} (hr : r'.sacks = r.sacks)
    (hf : ∀ s, f ⟨r.mss, r.scale, r.sackperm, r.ts, s⟩ = ⟨r'.mss, r'.scale, r'.sackperm, r'.ts, s⟩) :
    see buf r' = some (f g) := by
  unfold see at h ⊢
  rw [hr]
  cases hs : r.sacks with
  | none => rw [hs] at h; simp only [Option.some.injEq] at h; subst h; simp [hf]
  | some p =>
    obtain ⟨o, n⟩ := p
    rw [hs] at h
    simp only [Option.map_eq_some_iff] at h ⊢
    obtain ⟨bl, hb, rfl⟩ := h
    exact ⟨bl, hb, (hf _).symm⟩

theorem get0 (a : Nat) (l : List Nat) : (a :: l)[0]? = some a := rfl

/-- One option, seen. -/
theorem takeOption_step (syn dosack : Bool) (pre body suf : List Nat) (k : Nat) (st : In) (g : Got)
    (hk : 2 ≤ k)
    (hs : see (pre ++ (Item.opt k body).bytes ++ suf) st = some g) :
    ∃ st', takeOption syn dosack (pre ++ (Item.opt k body).bytes ++ suf) pre.length k (body.length + 2) st
        = some st' ∧
      see (pre ++ (Item.opt k body).bytes ++ suf) st' = some (stepGot syn dosack g (.opt k body)) := by
  have hbuf : pre ++ (Item.opt k body).bytes ++ suf = pre ++ (k :: (body.length + 2) :: (body ++ suf)) := by
    simp [Item.bytes]
  generalize hB : pre ++ (Item.opt k body).bytes ++ suf = buf at *
  unfold takeOption
  by_cases h2 : k = 2
  · subst h2
    by_cases hl : body.length + 2 = 4
    · match body, hl with
      | [a, b], _ =>
        cases syn
        · refine ⟨st, by simp, ?_⟩
          rw [hs]; simp [stepGot]
        · have hr : rd16 buf (pre.length + 2) = some (a * 256 + b) := by
            rw [hbuf, rd16At]; simp [rd16]
          refine ⟨{ st with mss := some (a * 256 + b) }, by simp [hr], ?_⟩
          exact see_none hs (fun x => stepGot true dosack x (.opt 2 [a, b])) rfl
            (by intro s; simp [stepGot, num16])
    · have hn : num16 body = none := by
        match body, hl with
        | [], _ => rfl
        | [_], _ => rfl
        | [_, _], hl => exact absurd rfl hl
        | _ :: _ :: _ :: _, _ => rfl
      refine ⟨st, by simp [hl], ?_⟩
      rw [hs]; simp [stepGot, hn]
  by_cases h3 : k = 3
  · subst h3
    by_cases hl : body.length + 2 = 3
    · match body, hl with
      | [a], _ =>
        cases syn
        · refine ⟨st, by simp, ?_⟩
          rw [hs]; simp [stepGot]
        · have hr : buf[pre.length + 2]? = some a := by
            rw [hbuf, getAt]; simp
          refine ⟨{ st with scale := some (min a 14) }, by simp [hr], ?_⟩
          exact see_none hs (fun x => stepGot true dosack x (.opt 3 [a])) rfl
            (by intro s; simp [stepGot, shiftCount])
    · have hn : shiftCount body = none := by
        match body, hl with
        | [], _ => rfl
        | [_], hl => exact absurd rfl hl
        | _ :: _ :: _, _ => rfl
      refine ⟨st, by simp [hl], ?_⟩
      rw [hs]; simp [stepGot, hn]
  by_cases h8 : k = 8
  · subst h8
    by_cases hl : body.length + 2 = 10
    · match body, hl with
      | [a, b, c, d, e, f, g', h], _ =>
        have hr : rd32 buf (pre.length + 2) = some (a * 16777216 + b * 65536 + c * 256 + d) := by
          rw [hbuf, rd32At]; simp [rd32]
        have hr' : rd32 buf (pre.length + 6) = some (e * 16777216 + f * 65536 + g' * 256 + h) := by
          rw [hbuf, rd32At]; simp [rd32]
        refine ⟨{ st with ts := some (a * 16777216 + b * 65536 + c * 256 + d,
          e * 16777216 + f * 65536 + g' * 256 + h) }, by simp [hr, hr'], ?_⟩
        exact see_none hs (fun x => stepGot syn dosack x (.opt 8 [a, b, c, d, e, f, g', h])) rfl
          (by intro s; simp [stepGot, two32])
    · have hn : two32 body = none := by
        unfold two32
        split
        · exact absurd rfl hl
        · rfl
      refine ⟨st, by simp [hl], ?_⟩
      rw [hs]; simp [stepGot, hn]
  by_cases h4 : k = 4
  · subst h4
    by_cases hl : body = []
    · subst hl
      cases syn <;> cases dosack
      · exact ⟨st, by simp, by rw [hs]; simp [stepGot]⟩
      · exact ⟨st, by simp, by rw [hs]; simp [stepGot]⟩
      · exact ⟨st, by simp, by rw [hs]; simp [stepGot]⟩
      · exact ⟨{ st with sackperm := true }, by simp,
          see_none (r' := { st with sackperm := true }) hs (fun x => stepGot true true x (.opt 4 [])) rfl
            (by intro s; simp [stepGot])⟩
    · have : body.length ≠ 0 := by simpa using hl
      exact ⟨st, by simp [hl], by rw [hs]; simp [stepGot, hl]⟩
  by_cases h5 : k = 5
  · subst h5
    cases hb : someBlocks body with
    | none =>
      have hl : body.length + 2 ≤ 2 ∨ (body.length + 2 - 2) % 8 ≠ 0 := by
        unfold someBlocks at hb
        split at hb
        · rename_i he; left; simp [he]
        · right; simpa using blocks_none _ hb
      refine ⟨st, by simp only [hl]; simp, ?_⟩
      rw [hs]; simp [stepGot, hb]
    | some bl =>
      have hne : body ≠ [] := by
        intro he; simp [someBlocks, he] at hb
      have hb' : blocks body = some bl := by
        unfold someBlocks at hb; simpa [hne] using hb
      have hlen := blocks_length _ _ hb'
      have hpos : body.length ≠ 0 := by simpa using hne
      have hl : ¬ (body.length + 2 ≤ 2 ∨ (body.length + 2 - 2) % 8 ≠ 0) := by omega
      cases syn
      · refine ⟨{ st with sacks := some (pre.length + 2, bl.length) }, ?_, ?_⟩
        · simp only [hl]
          have : (body.length + 2 - 2) / 8 = bl.length := by omega
          rw [this]; simp
        · have hr : readBlocks buf (pre.length + 2) bl.length = some bl := by
            have e : buf = (pre ++ [5, body.length + 2]) ++ (body ++ suf) := by rw [hbuf]; simp
            have := readBlocksAt (pre ++ [5, body.length + 2]) (body ++ suf) bl.length 0
            rw [← e] at this
            simp only [List.length_append, List.length_cons, List.length_nil, Nat.add_zero,
              Nat.zero_add] at this
            rw [this]
            exact readBlocks_blocks bl body suf hb'
          have hg : g.mss = st.mss ∧ g.scale = st.scale ∧ g.sackperm = st.sackperm ∧ g.ts = st.ts := by
            unfold see at hs
            split at hs
            · simp only [Option.some.injEq] at hs; subst hs; simp
            · simp only [Option.map_eq_some_iff] at hs
              obtain ⟨_, _, rfl⟩ := hs
              simp
          unfold see
          simp only [hr, Option.map_some, stepGot, hb]
          simp [hg]
      · refine ⟨st, by simp only [hl]; simp, ?_⟩
        rw [hs]; simp [stepGot]
  · refine ⟨st, by simp [h2, h3, h8, h4, h5], ?_⟩
    rw [hs]; simp [stepGot, h2, h3, h8, h4, h5]

theorem parse_stops (syn dosack : Bool) (pre rest tail : List Nat) (st : In) (h : Stops rest) :
    parse syn dosack (pre ++ rest ++ tail) pre.length rest.length st = some st := by
  unfold parse
  match rest, h with
  | [], _ => simp
  | [k], h =>
    have hg : (pre ++ [k] ++ tail)[pre.length]? = some k := by simp
    simp only [Stops] at h
    simp [h]
  | k :: l :: more, h =>
    have hg : (pre ++ (k :: l :: more) ++ tail)[pre.length]? = some k := by simp
    have hg' : (pre ++ (k :: l :: more) ++ tail)[pre.length + 1]? = some l := by
      rw [List.append_assoc, getAt]; simp
    simp only [Stops] at h
    simp only [hg, hg', List.length_cons]
    rcases h with h | ⟨h, h'⟩
    · simp [h]
    · by_cases h0 : k = 0
      · simp [h0]
      · have : l < 2 ∨ l > more.length + 1 + 1 := by omega
        simp [h0, h, this]

theorem parse_items (syn dosack : Bool) (tail rest : List Nat) (hr : Stops rest) :
    ∀ (items : List Item), (∀ i ∈ items, i.Valid) → ∀ (pre : List Nat) (st : In) (g : Got),
      see (pre ++ (areaBytes items ++ rest) ++ tail) st = some g →
      ∃ st', parse syn dosack (pre ++ (areaBytes items ++ rest) ++ tail) pre.length
          (areaBytes items ++ rest).length st = some st' ∧
        see (pre ++ (areaBytes items ++ rest) ++ tail) st' = some (items.foldl (stepGot syn dosack) g)
  | [], _, pre, st, g, hs => by
    refine ⟨st, ?_, hs⟩
    simpa [areaBytes] using parse_stops syn dosack pre rest tail st hr
  | .nop :: is, hv, pre, st, g, hs => by
    have hb : pre ++ (areaBytes (.nop :: is) ++ rest) ++ tail =
        (pre ++ [1]) ++ (areaBytes is ++ rest) ++ tail := by simp [areaBytes, Item.bytes]
    have hl : (areaBytes (.nop :: is) ++ rest).length = (areaBytes is ++ rest).length + 1 := by
      simp [areaBytes, Item.bytes]
    rw [hb] at hs ⊢
    obtain ⟨st', h1, h2⟩ := parse_items syn dosack tail rest hr is
      (fun i hi => hv i (List.mem_cons_of_mem _ hi)) (pre ++ [1]) st g hs
    refine ⟨st', ?_, h2⟩
    rw [hl]
    unfold parse
    have hg : ((pre ++ [1]) ++ (areaBytes is ++ rest) ++ tail)[pre.length]? = some 1 := by simp
    have ht : ∀ b c, takeOption syn dosack b c 1 1 st = some st := by
      intro b c; simp [takeOption]
    simp only [hg, ht]
    simpa using h1
  | .opt k body :: is, hv, pre, st, g, hs => by
    have hk : 2 ≤ k := hv (.opt k body) (by simp)
    have hb : pre ++ (areaBytes (.opt k body :: is) ++ rest) ++ tail =
        (pre ++ (Item.opt k body).bytes) ++ (areaBytes is ++ rest) ++ tail := by simp [areaBytes]
    have hl : (areaBytes (.opt k body :: is) ++ rest).length =
        (areaBytes is ++ rest).length + (body.length + 2) := by
      simp [areaBytes, Item.bytes]; omega
    have hb2 : (pre ++ (Item.opt k body).bytes) ++ (areaBytes is ++ rest) ++ tail =
       pre ++ (Item.opt k body).bytes ++ ((areaBytes is ++ rest) ++ tail) := by simp
    rw [hb] at hs ⊢
    rw [hb2] at hs
    obtain ⟨st1, ht, hs1⟩ := takeOption_step syn dosack pre body ((areaBytes is ++ rest) ++ tail) k st g hk hs
    rw [← hb2] at ht hs1
    obtain ⟨st', h1, h2⟩ := parse_items syn dosack tail rest hr is
      (fun i hi => hv i (List.mem_cons_of_mem _ hi)) (pre ++ (Item.opt k body).bytes) st1 _ hs1
    refine ⟨st', ?_, h2⟩
    rw [hl]
    unfold parse
    have hg : ((pre ++ (Item.opt k body).bytes) ++ (areaBytes is ++ rest) ++ tail)[pre.length]? = some k := by
      simp [Item.bytes]
    have hg1 : ((pre ++ (Item.opt k body).bytes) ++ (areaBytes is ++ rest) ++ tail)[pre.length + 1]? =
        some (body.length + 2) := by
      rw [hb2, List.append_assoc, getAt]; simp [Item.bytes]
    simp only [hg, hg1, ht]
    have e1 : ¬ ((areaBytes is ++ rest).length + (body.length + 2) = 0) := by omega
    have e2 : ¬ (k = 0) := by omega
    have e3 : ¬ (k = 1) := by omega
    have e4 : ¬ ((areaBytes is ++ rest).length + (body.length + 2) < 2) := by omega
    have e5 : ¬ (body.length + 2 < 2 ∨ body.length + 2 > (areaBytes is ++ rest).length + (body.length + 2)) := by
      omega
    simp only [e1, e2, e3, e4, e5, dif_neg, if_neg, not_false_eq_true]
    have e6 : pre.length + (body.length + 2) = (pre ++ (Item.opt k body).bytes).length := by
      simp [Item.bytes]
    rw [e6, Nat.add_sub_cancel]
    exact h1

/-- Every byte string is a sequence of items and something that stops the reader. -/
theorem area_exists : ∀ (n : Nat) (buf : List Nat), buf.length = n →
    ∃ items rest, (∀ i ∈ items, Item.Valid i) ∧ Stops rest ∧ buf = areaBytes items ++ rest := by
  intro n
  induction n using Nat.strong_induction_on with
  | _ n ih =>
    intro buf hn
    match buf, hn with
    | [], _ => exact ⟨[], [], by simp, by simp [Stops], rfl⟩
    | [k], hn =>
      by_cases h : k = 1
      · exact ⟨[.nop], [], by simp [Item.Valid], by simp [Stops], by simp [areaBytes, Item.bytes, h]⟩
      · exact ⟨[], [k], by simp, by simp [Stops, h], rfl⟩
    | k :: l :: more, hn =>
      by_cases h : k = 1
      · obtain ⟨is, r, h1, h2, h3⟩ := ih (more.length + 1) (by simp at hn; omega) (l :: more) rfl
        refine ⟨.nop :: is, r, ?_, h2, ?_⟩
        · intro i hi
          rcases List.mem_cons.1 hi with rfl | hi
          · trivial
          · exact h1 i hi
        · rw [h3]; simp [areaBytes, Item.bytes, h]
      · by_cases hs : k = 0 ∨ l < 2 ∨ l > more.length + 2
        · refine ⟨[], k :: l :: more, by simp, ?_, rfl⟩
          simp only [Stops]; omega
        · have hl : (more.take (l - 2)).length = l - 2 := by
            rw [List.length_take]; omega
          obtain ⟨is, r, h1, h2, h3⟩ := ih ((more.drop (l - 2)).length)
            (by simp at hn ⊢; omega) _ rfl
          refine ⟨.opt k (more.take (l - 2)) :: is, r, ?_, h2, ?_⟩
          · intro i hi
            rcases List.mem_cons.1 hi with rfl | hi
            · simp only [Item.Valid]; omega
            · exact h1 i hi
          · have : areaBytes (.opt k (more.take (l - 2)) :: is) ++ r =
              k :: l :: (more.take (l - 2) ++ (areaBytes is ++ r)) := by
              simp only [areaBytes, List.flatMap_cons, Item.bytes, hl]
              have : l - 2 + 2 = l := by omega
              simp [this]
            rw [this, ← h3, List.take_append_drop]

end Verif.Tcpopt
