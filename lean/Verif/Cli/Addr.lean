import Verif.Cli.Model
import Mathlib.Data.List.GetD
/-!
# Properties of the command line: addresses
-/
namespace Verif.Cli

/-! ## IPv4 -/

/-- One to three decimal digits. -/
def Dec3 (s : Str) : Prop := s ≠ [] ∧ s.length ≤ 3 ∧ ∀ c ∈ s, isDec c = true

/-- Four parts with dots between them. -/
def dotted (a b c d : Str) : Str := a ++ '.' :: (b ++ '.' :: (c ++ '.' :: d))

theorem sep_dot {a : Str} (ha : ∀ c ∈ a, c ≠ '.') (r : Str) : sep (is '.') (a ++ '.' :: r) = (a, some r) := by
  induction a with
  | nil => rfl
  | cons c cs ih =>
    have h : is '.' c = false := by simpa [is] using ha c (by simp)
    show sep _ (c :: (cs ++ '.' :: r)) = _
    unfold sep
    rw [h, ih fun d hd => ha d (by simp [hd])]
    rfl

theorem sep_nodot {a : Str} (ha : ∀ c ∈ a, c ≠ '.') : sep (is '.') a = (a, none) := by
  induction a with
  | nil => rfl
  | cons c cs ih =>
    have h : is '.' c = false := by simpa [is] using ha c (by simp)
    unfold sep
    rw [h, ih fun d hd => ha d (by simp [hd])]
    rfl

theorem sep_parts (s : Str) : (∀ c ∈ (sep (is '.') s).1, c ≠ '.') ∧
    s = (sep (is '.') s).1 ++ (match (sep (is '.') s).2 with
      | none => []
      | some r => '.' :: r) := by
  induction s with
  | nil => exact ⟨by simp [sep], rfl⟩
  | cons c cs ih =>
    unfold sep
    by_cases h : is '.' c = true
    · rw [if_pos h]
      have : c = '.' := by simpa [is] using h
      exact ⟨by simp, by simp [this]⟩
    · rw [if_neg h]
      refine ⟨fun d hd => ?_, ?_⟩
      · simp only [List.mem_cons] at hd
        rcases hd with rfl | hd
        · simpa [is] using h
        · exact ih.1 d hd
      · show c :: cs = c :: ((sep (is '.') cs).1 ++ _)
        exact congrArg (c :: ·) ih.2

theorem octet_nodot {s : Str} (h : octetOk s = true) : ∀ c ∈ s, c ≠ '.' := by
  have hi : intOk s = true := by unfold octetOk at h; simp at h; exact h.2
  rintro c hc rfl
  have hx : isHex '.' = false := by decide
  have hd : isDec '.' = false := by decide
  unfold intOk at hi
  split at hi
  · simp at hc
    have := List.all_eq_true.mp hi _ hc
    rw [hx] at this; exact absurd this (by decide)
  · simp at hc
    have := List.all_eq_true.mp hi _ hc
    rw [hx] at this; exact absurd this (by decide)
  · have := List.all_eq_true.mp hi _ hc
    rw [hd] at this; exact absurd this (by decide)

/-- **C231**: just four parts with dots between them are accepted as an IPv4 address, each of one to three characters, and a
number. -/
theorem ip4_accepted (s : Str) : ip4addrOk s = true ↔
    ∃ a b c d, s = dotted a b c d ∧ octetOk a = true ∧ octetOk b = true ∧ octetOk c = true ∧ octetOk d = true := by
  constructor
  · intro h
    unfold ip4addrOk octetsOk at h
    simp only [Bool.and_eq_true] at h
    obtain ⟨ha, h⟩ := h
    obtain ⟨_, e1⟩ := sep_parts s
    split at h
    · simp at h
    · rename_i r1 hr1
      rw [hr1] at e1
      unfold octetsOk at h
      simp only [Bool.and_eq_true] at h
      obtain ⟨hb, h⟩ := h
      obtain ⟨_, e2⟩ := sep_parts r1
      split at h
      · simp at h
      · rename_i r2 hr2
        rw [hr2] at e2
        unfold octetsOk at h
        simp only [Bool.and_eq_true] at h
        obtain ⟨hc, h⟩ := h
        obtain ⟨_, e3⟩ := sep_parts r2
        split at h
        · simp at h
        · rename_i r3 hr3
          rw [hr3] at e3
          unfold octetsOk at h
          simp only [Bool.and_eq_true] at h
          obtain ⟨hd, h⟩ := h
          obtain ⟨_, e4⟩ := sep_parts r3
          have hn : (sep (is '.') r3).2 = none := by simpa using h
          rw [hn] at e4
          simp only [List.append_nil] at e4
          refine ⟨_, _, _, _, ?_, ha, hb, hc, hd⟩
          unfold dotted
          rw [← e4, ← e3, ← e2, ← e1]
  · rintro ⟨a, b, c, d, rfl, ha, hb, hc, hd⟩
    have e1 := sep_dot (octet_nodot ha) (b ++ '.' :: (c ++ '.' :: d))
    have e2 := sep_dot (octet_nodot hb) (c ++ '.' :: d)
    have e3 := sep_dot (octet_nodot hc) d
    have e4 := sep_nodot (octet_nodot hd)
    unfold ip4addrOk dotted octetsOk
    rw [e1]
    simp only [ha, Bool.true_and]
    unfold octetsOk
    rw [e2]
    simp only [hb, Bool.true_and]
    unfold octetsOk
    rw [e3]
    simp only [hc, Bool.true_and]
    unfold octetsOk
    rw [e4]
    simp [hd]

theorem intOk_dec {s : Str} (h : ∀ c ∈ s, isDec c = true) : intOk s = true := by
  have hx : isDec 'x' = false := by decide
  have hX : isDec 'X' = false := by decide
  unfold intOk
  split
  · rw [h 'x' (by simp)] at hx; exact absurd hx (by decide)
  · rw [h 'X' (by simp)] at hX; exact absurd hX (by decide)
  · exact List.all_eq_true.mpr h

theorem octet_dec {s : Str} (h : Dec3 s) : octetOk s = true := by
  obtain ⟨h1, h2, h3⟩ := h
  unfold octetOk
  rw [intOk_dec h3]
  have : s.length ≠ 0 := fun h => h1 (List.length_eq_zero_iff.mp h)
  simp [h2, h1]

theorem takeWhile_all {p : Char → Bool} {a : Str} (ha : ∀ c ∈ a, p c = true) (r : Str) (hr : ∀ c, r.head? = some c → p c = false) :
    (a ++ r).takeWhile p = a ∧ (a ++ r).dropWhile p = r := by
  induction a with
  | nil =>
    cases r with
    | nil => simp
    | cons c r =>
      have := hr c rfl
      simp [this]
  | cons c cs ih =>
    have hc := ha c (by simp)
    obtain ⟨i1, i2⟩ := ih fun d hd => ha d (by simp [hd])
    constructor
    · show (c :: (cs ++ r)).takeWhile p = _
      rw [List.takeWhile_cons_of_pos hc, i1]
    · show (c :: (cs ++ r)).dropWhile p = _
      rw [List.dropWhile_cons_of_pos hc, i2]

theorem scan_dec {a : Str} (ha : Dec3 a) (r : Str) (hr : ∀ c, r.head? = some c → isDec c = false) :
    scan (a ++ r) = some (value 10 a, r) := by
  obtain ⟨h1, h2⟩ := takeWhile_all ha.2.2 r hr
  unfold scan
  rw [h1, h2, if_neg ha.1]

theorem get_dotted {a b c d : Str} (ha : Dec3 a) (hb : Dec3 b) (hc : Dec3 c) (hd : Dec3 d) :
    ip4addrGet (dotted a b c d) =
      some ((value 10 a * 2 ^ 24 % 2 ^ 32) ||| (value 10 b * 2 ^ 16) ||| (value 10 c * 2 ^ 8) ||| value 10 d) := by
  have hdot : ∀ r : Str, ∀ c, ('.' :: r).head? = some c → isDec c = false := by
    intro r c h; simp at h; subst h; decide
  unfold ip4addrGet dotted
  rw [scan_dec ha _ (hdot _)]
  simp only [expect, if_true, Option.bind_eq_bind, Option.bind_some]
  rw [scan_dec hb _ (hdot _)]
  simp only [expect, if_true, Option.bind_some]
  rw [scan_dec hc _ (hdot _)]
  simp only [expect, if_true, Option.bind_some]
  have := scan_dec hd [] (by simp)
  rw [List.append_nil] at this
  rw [this]
  rfl

/-- **C231**: four decimal numbers up to 255 are accepted, and are the address that is meant. -/
theorem ip4_partial {a b c d : Str} (ha : Dec3 a) (hb : Dec3 b) (hc : Dec3 c) (hd : Dec3 d) (va : value 10 a ≤ 255)
    (vb : value 10 b ≤ 255) (vc : value 10 c ≤ 255) (vd : value 10 d ≤ 255) :
    ip4addrOk (dotted a b c d) = true ∧
    ip4addrGet (dotted a b c d) =
      some (value 10 a * 16777216 + value 10 b * 65536 + value 10 c * 256 + value 10 d) := by
  refine ⟨(ip4_accepted _).mpr ⟨a, b, c, d, rfl, octet_dec ha, octet_dec hb, octet_dec hc, octet_dec hd⟩, ?_⟩
  rw [get_dotted ha hb hc hd]
  generalize value 10 a = x at *
  generalize value 10 b = y at *
  generalize value 10 c = z at *
  generalize value 10 d = w at *
  have e0 : x * 2 ^ 24 % 2 ^ 32 = 2 ^ 24 * x := by rw [Nat.mod_eq_of_lt (by omega), Nat.mul_comm]
  have e1 : 2 ^ 24 * x ||| y * 2 ^ 16 = 2 ^ 16 * (256 * x + y) := by
    rw [← Nat.two_pow_add_eq_or_of_lt (by omega)]; omega
  have e2 : 2 ^ 16 * (256 * x + y) ||| z * 2 ^ 8 = 2 ^ 8 * (256 * (256 * x + y) + z) := by
    rw [← Nat.two_pow_add_eq_or_of_lt (by omega)]; omega
  have e3 : 2 ^ 8 * (256 * (256 * x + y) + z) ||| w = 2 ^ 8 * (256 * (256 * x + y) + z) + w := by
    rw [← Nat.two_pow_add_eq_or_of_lt (by omega)]
  rw [e0, e1, e2, e3]
  congr 1
  omega

theorem value3 {a : Str} (ha : Dec3 a) : value 10 a ≤ 999 := by
  obtain ⟨h1, h2, h3⟩ := ha
  have hd : ∀ c ∈ a, digit c ≤ 9 := by
    intro c hc
    have := h3 c hc
    unfold digit
    rw [if_pos this]
    simp only [isDec, Bool.and_eq_true, decide_eq_true_eq] at this
    have h9 : c.toNat ≤ 57 := this.2
    omega
  match a, h1, h2 with
  | [x], _, _ => have := hd x (by simp); simp [value]; omega
  | [x, y], _, _ => have := hd x (by simp); have := hd y (by simp); simp [value]; omega
  | [x, y, z], _, _ =>
    have := hd x (by simp); have := hd y (by simp); have := hd z (by simp); simp [value]; omega

/-- **C231, violated**: so are numbers from 256 to 999, in any place, and another address is read. -/
theorem ip4_range_violated {a b c d : Str} (ha : Dec3 a) (hb : Dec3 b) (hc : Dec3 c) (hd : Dec3 d) :
    ip4addrOk (dotted a b c d) = true ∧ ∃ w x y z, w ≤ 255 ∧ x ≤ 255 ∧ y ≤ 255 ∧ z ≤ 255 ∧
      ip4addrGet (dotted a b c d) = some (w * 16777216 + x * 65536 + y * 256 + z) := by
  refine ⟨(ip4_accepted _).mpr ⟨a, b, c, d, rfl, octet_dec ha, octet_dec hb, octet_dec hc, octet_dec hd⟩, ?_⟩
  rw [get_dotted ha hb hc hd]
  have h0 := value3 ha
  have h1 := value3 hb
  have h2 := value3 hc
  have h3 := value3 hd
  generalize value 10 a = x at *
  generalize value 10 b = y at *
  generalize value 10 c = z at *
  generalize value 10 d = w at *
  have hlt : (x * 2 ^ 24 % 2 ^ 32) ||| (y * 2 ^ 16) ||| (z * 2 ^ 8) ||| w < 2 ^ 32 :=
    Nat.or_lt_two_pow (Nat.or_lt_two_pow (Nat.or_lt_two_pow (Nat.mod_lt _ (by decide)) (by omega)) (by omega)) (by omega)
  generalize (x * 2 ^ 24 % 2 ^ 32) ||| (y * 2 ^ 16) ||| (z * 2 ^ 8) ||| w = n at *
  refine ⟨n / 16777216, n / 65536 % 256, n / 256 % 256, n % 256, by omega, by omega, by omega, by omega, ?_⟩
  congr 1
  omega

/-- **C231, violated**: a hexadecimal number in the first place is accepted, and then not read. -/
theorem ip4_hex_violated {h : Char} (hh : isHex h = true) {b c d : Str} (hb : Dec3 b) (hc : Dec3 c) (hd : Dec3 d) :
    ip4addrOk (dotted ['0', 'x', h] b c d) = true ∧ ip4addrGet (dotted ['0', 'x', h] b c d) = none := by
  constructor
  · refine (ip4_accepted _).mpr ⟨_, b, c, d, rfl, ?_, octet_dec hb, octet_dec hc, octet_dec hd⟩
    simp [octetOk, intOk, hh]
  · have h0 : scan (dotted ['0', 'x', h] b c d) = some (0, 'x' :: h :: '.' :: (b ++ '.' :: (c ++ '.' :: d))) := by
      have hx : isDec 'x' = false := by decide
      have h00 : isDec '0' = true := by decide
      unfold scan dotted
      simp [List.takeWhile, List.dropWhile, hx, h00]
      decide
    unfold ip4addrGet
    rw [h0]
    simp [expect]

/-! ## IPv6 -/

/-- One to four hexadecimal digits. -/
def Hex4 (s : Str) : Prop := s ≠ [] ∧ s.length ≤ 4 ∧ ∀ c ∈ s, isHex c = true

/-- Groups with colons between them. -/
def join : List Str → Str
  | [] => []
  | [g] => g
  | g :: gs => g ++ ':' :: join gs

/-- The numbers of the groups. -/
def vals (gs : List Str) : List Nat := gs.map (value 16)

theorem hex_colon {c : Char} (h : isHex c = true) : c ≠ ':' := by rintro rfl; exact absurd h (by decide)

theorem loop_colon (r : Str) (k : Chk) : ip6loop (':' :: r) k = ip6loop r ⟨true, k.colons + 1, k.groups, k.short || k.colon⟩ := by
  rw [ip6loop]; simp

theorem loop_group {g : Str} (hg : Hex4 g) (r : Str) (hr : ∀ c, r.head? = some c → isHex c = false) (k : Chk) :
    ip6loop (g ++ r) k = ip6loop r ⟨false, k.colons, k.groups + 1, k.short⟩ := by
  obtain ⟨h1, h2, h3⟩ := hg
  cases g with
  | nil => exact absurd rfl h1
  | cons c g =>
    have hc := h3 c (by simp)
    have ht := (takeWhile_all h3 r hr).1
    have hd := (takeWhile_all (fun d hd => h3 d (List.mem_cons_of_mem _ hd)) r hr).2
    show ip6loop (c :: (g ++ r)) k = _
    rw [ip6loop]
    rw [if_neg (hex_colon hc), if_pos hc]
    have ht' : (c :: (g ++ r)).takeWhile isHex = c :: g := ht
    rw [ht', if_neg (by omega), hd]

theorem loop_join (gs : List Str) (hg : ∀ g ∈ gs, Hex4 g) (r : Str) (hr : ∀ c, r.head? = some c → isHex c = false)
    (k : Chk) : ip6loop (join gs ++ r) k =
      if gs = [] then ip6loop r k else ip6loop r ⟨false, k.colons + (gs.length - 1), k.groups + gs.length, k.short⟩ := by
  induction gs generalizing k with
  | nil => simp [join]
  | cons g gs ih =>
    rw [if_neg (by simp)]
    cases gs with
    | nil => simp only [join]; rw [loop_group (hg g (by simp)) r hr]; rfl
    | cons g' gs =>
      have hj : join (g :: g' :: gs) ++ r = g ++ (':' :: (join (g' :: gs) ++ r)) := by simp [join]
      rw [hj, loop_group (hg g (by simp)) _ (by intro c h; simp at h; subst h; decide), loop_colon,
        ih (fun x hx => hg x (List.mem_cons_of_mem _ hx)), if_neg (by simp)]
      simp only [List.length_cons, Bool.or_false]
      congr 2 <;> omega

theorem read_group {g : Str} (hg : Hex4 g) (r : Str) (hr : ∀ c, r.head? = some c → isHex c = false) (k : Get) :
    ip6read (g ++ r) k = ip6read r ⟨false, k.groups ++ [value 16 g], k.dbl⟩ := by
  obtain ⟨h1, h2, h3⟩ := hg
  cases g with
  | nil => exact absurd rfl h1
  | cons c g =>
    have hc := h3 c (by simp)
    have ht := (takeWhile_all h3 r hr).1
    have hd := (takeWhile_all (fun d hd => h3 d (List.mem_cons_of_mem _ hd)) r hr).2
    show ip6read (c :: (g ++ r)) k = _
    rw [ip6read]
    rw [if_neg (hex_colon hc), if_pos hc]
    have ht' : (c :: (g ++ r)).takeWhile isHex = c :: g := ht
    rw [ht', if_neg (by omega), hd]

theorem read_colon (r : Str) (k : Get) (h : k.colon = false) : ip6read (':' :: r) k = ip6read r ⟨true, k.groups, k.dbl⟩ := by
  rw [ip6read]; simp [h]

theorem read_colon2 (r : Str) (gs : List Nat) :
    ip6read (':' :: r) ⟨true, gs, none⟩ = ip6read r ⟨true, gs, some gs.length⟩ := by
  rw [ip6read]; simp

theorem read_colon3 (r : Str) (gs : List Nat) (n : Nat) : ip6read (':' :: r) ⟨true, gs, some n⟩ = none := by
  rw [ip6read]; simp

theorem read_join (gs : List Str) (hg : ∀ g ∈ gs, Hex4 g) (r : Str) (hr : ∀ c, r.head? = some c → isHex c = false)
    (k : Get) : ip6read (join gs ++ r) k =
      if gs = [] then ip6read r k else ip6read r ⟨false, k.groups ++ vals gs, k.dbl⟩ := by
  induction gs generalizing k with
  | nil => simp [join]
  | cons g gs ih =>
    rw [if_neg (by simp)]
    cases gs with
    | nil => simp only [join]; rw [read_group (hg g (by simp)) r hr]; rfl
    | cons g' gs =>
      have hj : join (g :: g' :: gs) ++ r = g ++ (':' :: (join (g' :: gs) ++ r)) := by simp [join]
      rw [hj, read_group (hg g (by simp)) _ (by intro c h; simp at h; subst h; decide), read_colon _ _ rfl,
        ih (fun x hx => hg x (List.mem_cons_of_mem _ hx)), if_neg (by simp)]
      simp [vals]

theorem loop_nil (k : Chk) : ip6loop [] k = some k := by rw [ip6loop]
theorem read_nil (k : Get) : ip6read [] k = some k := by rw [ip6read]

theorem colon_head (r : Str) : ∀ c, (':' :: r).head? = some c → isHex c = false := by
  intro c h; simp at h; subst h; decide

/-- **C232**: eight groups with colons between them are accepted, and are the address that is meant. -/
theorem ip6_full {gs : List Str} (hg : ∀ g ∈ gs, Hex4 g) (hl : gs.length = 8) :
    ip6addrOk (join gs) = true ∧ ip6addrGet (join gs) = some (bytesOf (vals gs)) := by
  have hne : gs ≠ [] := by rintro rfl; simp at hl
  have h1 := loop_join gs hg [] (by simp) ⟨false, 0, 0, false⟩
  have h2 := read_join gs hg [] (by simp) ⟨false, [], none⟩
  rw [List.append_nil, if_neg hne, loop_nil, hl] at h1
  rw [List.append_nil, if_neg hne, read_nil] at h2
  constructor
  · unfold ip6addrOk; rw [h1]; rfl
  · unfold ip6addrGet; rw [h2]; simp

theorem loop_short {gs hs : List Str} (hg : ∀ g ∈ gs, Hex4 g) (hh : ∀ g ∈ hs, Hex4 g) (r : Str)
    (hr : ∀ c, r.head? = some c → isHex c = false) :
    ip6loop (join gs ++ ':' :: ':' :: (join hs ++ r)) ⟨false, 0, 0, false⟩ =
      ip6loop r ⟨hs = [], (gs.length - 1) + 2 + (hs.length - 1), gs.length + hs.length, true⟩ := by
  rw [loop_join gs hg _ (colon_head _)]
  have hmid : ∀ n m, ip6loop (':' :: ':' :: (join hs ++ r)) ⟨false, n, m, false⟩ =
      ip6loop r ⟨hs = [], n + 2 + (hs.length - 1), m + hs.length, true⟩ := by
    intro n m
    rw [loop_colon, loop_colon]
    simp only [Bool.or_self, Bool.or_true]
    rw [loop_join hs hh r hr]
    split
    · rename_i h; subst h; simp
    · rename_i h; simp [h]
  split
  · rename_i h; subst h; rw [hmid]; simp
  · rw [hmid]; simp

theorem read_short {gs hs : List Str} (hg : ∀ g ∈ gs, Hex4 g) (hh : ∀ g ∈ hs, Hex4 g) (r : Str)
    (hr : ∀ c, r.head? = some c → isHex c = false) :
    ip6read (join gs ++ ':' :: ':' :: (join hs ++ r)) ⟨false, [], none⟩ =
      ip6read r ⟨hs = [], vals gs ++ vals hs, some gs.length⟩ := by
  rw [read_join gs hg _ (colon_head _)]
  have hmid : ∀ vs : List Nat, ip6read (':' :: ':' :: (join hs ++ r)) ⟨false, vs, none⟩ =
      ip6read r ⟨hs = [], vs ++ vals hs, some vs.length⟩ := by
    intro vs
    rw [read_colon _ _ rfl, read_colon2, read_join hs hh r hr]
    split
    · rename_i h; subst h; simp [vals]
    · rename_i h; simp [h]
  split
  · rename_i h; subst h; rw [hmid]; rfl
  · rw [hmid]; simp [vals]

theorem move_spec {cnt d : Nat} (hc : cnt ≤ 8) (hd : d ≤ cnt) (a : Nat → Nat) (n : Nat) (hn : n ≤ 16 - d * 2) (j : Nat) (hj : j ≤ 15) :
    move cnt d n a j = if 16 - n ≤ j then (if 15 - j < (cnt - d) * 2 then a (cnt * 2 - 1 - (15 - j)) else 0) else a j := by
  induction n generalizing j with
  | zero => rw [if_neg (by omega)]; rfl
  | succ n ih =>
    unfold move
    simp only
    by_cases h : j = 15 - n
    · rw [if_pos h, if_pos (show 16 - (n + 1) ≤ j by omega)]
      have h15 : 15 - j = n := by omega
      rw [h15]
      by_cases hlt : n < (cnt - d) * 2
      · rw [if_pos hlt, if_pos hlt, ih (by omega) _ (by omega), if_neg (show ¬ 16 - n ≤ cnt * 2 - 1 - n by omega)]
      · rw [if_neg hlt, if_neg hlt]
    · rw [if_neg h, ih (by omega) j hj]
      by_cases h2 : 16 - n ≤ j
      · rw [if_pos h2, if_pos (show 16 - (n + 1) ≤ j by omega)]
      · rw [if_neg h2, if_neg (show ¬ 16 - (n + 1) ≤ j by omega)]

/-- **C232**: groups, two colons and groups, of which at most seven, or six if there are none before or none after the colons,
are accepted, and are the address that is meant, with as many zeros as there is room for. -/
theorem ip6_partial {gs hs : List Str} (hg : ∀ g ∈ gs, Hex4 g) (hh : ∀ g ∈ hs, Hex4 g)
    (hl : (gs.length - 1) + (hs.length - 1) ≤ 5) :
    ip6addrOk (join gs ++ ':' :: ':' :: join hs) = true ∧
    ∃ a, ip6addrGet (join gs ++ ':' :: ':' :: join hs) = some a ∧
      ∀ i, i < 16 → a i = bytesOf (vals gs ++ List.replicate (8 - (gs.length + hs.length)) 0 ++ vals hs) i := by
  have h1 := loop_short hg hh [] (by simp)
  have h2 := read_short hg hh [] (by simp)
  rw [List.append_nil, loop_nil] at h1
  rw [List.append_nil, read_nil] at h2
  have hlen : gs.length + hs.length ≤ 7 := by omega
  constructor
  · unfold ip6addrOk
    rw [h1]
    simp
    omega
  · unfold ip6addrGet
    rw [h2]
    refine ⟨_, rfl, fun i hi => ?_⟩
    simp only
    have hvl : (vals gs ++ vals hs).length = gs.length + hs.length := by simp [vals]
    rw [hvl, move_spec (by omega) (by omega) _ _ (by omega) i (by omega)]
    have hg' : (vals gs).length = gs.length := by simp [vals]
    have hh' : (vals hs).length = hs.length := by simp [vals]
    by_cases hin : 16 - (16 - gs.length * 2) ≤ i
    · rw [if_pos hin]
      by_cases hlast : 15 - i < (gs.length + hs.length - gs.length) * 2
      · rw [if_pos hlast]
        have hidx : ∀ q, q < hs.length → (vals gs ++ vals hs).getD (gs.length + q) 0 =
            (vals gs ++ List.replicate (8 - (gs.length + hs.length)) 0 ++ vals hs).getD (8 - hs.length + q) 0 := by
          intro q hq
          rw [List.getD_append_right _ _ _ _ (by omega), List.getD_append_right _ _ _ _ (by simp [hg']; omega)]
          congr 1
          simp [hg']; omega
        unfold bytesOf
        have e1 : ((gs.length + hs.length) * 2 - 1 - (15 - i)) % 2 = i % 2 := by omega
        have e2 : ((gs.length + hs.length) * 2 - 1 - (15 - i)) / 2 = gs.length + (i / 2 - (8 - hs.length)) := by omega
        have e3 : i / 2 = 8 - hs.length + (i / 2 - (8 - hs.length)) := by omega
        rw [e1, e2, hidx _ (by omega), ← e3]
      · rw [if_neg hlast]
        have hz : (vals gs ++ List.replicate (8 - (gs.length + hs.length)) 0 ++ vals hs).getD (i / 2) 0 = 0 := by
          rw [List.getD_append _ _ _ _ (by simp [hg']; omega), List.getD_append_right _ _ _ _ (by omega)]
          simp [List.getD_eq_getElem?_getD, List.getElem?_replicate]
          split <;> rfl
        unfold bytesOf
        rw [hz]
        split <;> rfl
    · rw [if_neg hin]
      have hz : (vals gs ++ List.replicate (8 - (gs.length + hs.length)) 0 ++ vals hs).getD (i / 2) 0 =
          (vals gs ++ vals hs).getD (i / 2) 0 := by
        rw [List.append_assoc, List.getD_append _ _ _ _ (by omega), List.getD_append _ _ _ _ (by omega)]
      unfold bytesOf
      rw [hz]

/-- **C232, violated**: seven groups after the two colons, or before them, are an address, and are refused. -/
theorem ip6_seven_violated {gs hs : List Str} (hg : ∀ g ∈ gs, Hex4 g) (hh : ∀ g ∈ hs, Hex4 g)
    (hl : gs = [] ∧ hs.length = 7 ∨ gs.length = 7 ∧ hs = []) : ip6addrOk (join gs ++ ':' :: ':' :: join hs) = false := by
  have h1 := loop_short hg hh [] (by simp)
  rw [List.append_nil, loop_nil] at h1
  unfold ip6addrOk
  rw [h1]
  rcases hl with ⟨rfl, h⟩ | ⟨h, rfl⟩ <;> simp [h]

/-- **C232, violated**: two pairs of colons are no address, but are accepted if there are not too many colons; reading then
fails. -/
theorem ip6_double_violated {gs hs ks : List Str} (hg : ∀ g ∈ gs, Hex4 g) (hh : ∀ g ∈ hs, Hex4 g) (hk : ∀ g ∈ ks, Hex4 g)
    (h0 : hs ≠ []) (hl : (gs.length - 1) + (hs.length - 1) + (ks.length - 1) ≤ 3) :
    ip6addrOk (join gs ++ ':' :: ':' :: (join hs ++ ':' :: ':' :: join ks)) = true ∧
    ip6addrGet (join gs ++ ':' :: ':' :: (join hs ++ ':' :: ':' :: join ks)) = none := by
  have h1 := loop_short hg hh (':' :: ':' :: join ks) (colon_head _)
  have h2 := read_short hg hh (':' :: ':' :: join ks) (colon_head _)
  constructor
  · unfold ip6addrOk
    rw [h1, loop_colon, loop_colon]
    have h3 := loop_join ks hk [] (by simp)
    simp only [List.append_nil] at h3
    rw [h3]
    by_cases hkk : ks = []
    · rw [if_pos hkk, loop_nil]
      subst hkk
      simp
      omega
    · rw [if_neg hkk, loop_nil]
      simp
      omega
  · unfold ip6addrGet
    rw [h2]
    simp only [h0, decide_false]
    rw [read_colon _ _ rfl, read_colon3]

/-! ## Cases -/

example : ip4addrGet "10.20.30.40".toList = some (10 * 16777216 + 20 * 65536 + 30 * 256 + 40) := by decide +kernel

/-- 300.1.1.1 is taken for 44.1.1.1. -/
example : ip4addrOk "300.1.1.1".toList = true ∧ ip4addrGet "300.1.1.1".toList = ip4addrGet "44.1.1.1".toList := by decide +kernel

example : Dec3 "300".toList := ⟨by decide, by decide, by decide⟩

example : Hex4 "fe80".toList := ⟨by decide, by decide, by decide⟩

end Verif.Cli
