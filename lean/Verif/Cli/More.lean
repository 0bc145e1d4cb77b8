import Verif.Cli.Addr
import Verif.Cli.Edit
import Mathlib.Data.List.TakeWhile
/-!
# The command line: more about lines and addresses
-/
namespace Verif.Cli

/-! ## Lines that fit several commands -/

theorem hits_all {ok : Checks} {t : Tree} {tok : Str} {w : Word} (h : w ∈ heads t) (hf : fits ok w tok = true) :
    ∃ x ∈ hits ok t tok, x.1 = w := by
  induction t with
  | nil => simp [heads] at h
  | node v g next alt _ iha =>
    unfold hits
    simp only [heads, List.mem_cons] at h
    rcases h with rfl | h
    · rw [if_pos hf]; exact ⟨_, List.mem_cons_self .., rfl⟩
    · obtain ⟨x, hx, he⟩ := iha h
      split
      · exact ⟨x, List.mem_cons_of_mem _ hx, he⟩
      · exact ⟨x, hx, he⟩

/-- What is found is the only alternative that fits. -/
theorem find_unique {ok : Checks} {t : Tree} {tok : Str} {x : Word × Option Nat × Tree} (h : find ok t tok = some x) :
    ∀ v ∈ heads t, v ≠ x.1 → fits ok v tok = false := by
  intro v hv hne
  cases hf : fits ok v tok with
  | false => rfl
  | true =>
    obtain ⟨y, hy, he⟩ := hits_all hv hf
    unfold find at h
    split at h
    · rename_i z hz
      rw [hz] at hy
      simp at hy h
      subst hy; subst h
      exact absurd he.symm hne
    · simp at h

theorem only_cons {ok : Checks} {t next : Tree} {w : Word} {tok : Str} {ws : List Word} {ts : List Str}
    (h1 : ∀ v ∈ heads t, v ≠ w → fits ok v tok = false)
    (h2 : ∀ u r f, (w :: u :: r, f) ∈ paths t → (u :: r, f) ∈ paths next) (h3 : Only ok (paths next) ws ts) :
    Only ok (paths t) (w :: ws) (tok :: ts) := by
  intro c hc pre a b r r' e1 e2 hne tk htk
  obtain ⟨c1, c2⟩ := c
  simp only at e2
  subst e2
  cases pre with
  | nil =>
    simp at e1 htk
    obtain ⟨rfl, _⟩ := e1
    subst htk
    exact h1 b (path_head hc) (Ne.symm hne)
  | cons y pre =>
    simp only [List.cons_append, List.cons.injEq] at e1
    obtain ⟨rfl, e1⟩ := e1
    have hmem : (pre ++ b :: r', c2) ∈ paths next := by
      cases pre with
      | nil => exact h2 b r' c2 hc
      | cons z pre => exact h2 z (pre ++ b :: r') c2 hc
    exact h3 _ hmem pre a b r r' e1 rfl hne tk (by simpa using htk)

theorem only_nil {ok : Checks} (cs : List (List Word × Nat)) (ts : List Str) : Only ok cs [] ts := by
  intro c _ pre w w' r r' h
  simp at h

theorem walk_only {ok : Checks} (toks : List Str) (t : Tree) (hw : Wf t) (last : Option (Word × Option Nat)) (ps : List Str) :
    (walk ok t toks last ps = (last, ps)) ∨
    ∃ ws pre post g w qs, toks = pre ++ post ∧ walk ok t toks last ps = (some (w, g), ps ++ qs) ∧ Looks ok ws pre qs ∧
      (∀ f, g = some f → (ws, f) ∈ paths t) ∧ Only ok (paths t) ws pre := by
  induction toks generalizing t last ps with
  | nil => left; cases t <;> rfl
  | cons tok toks ih =>
    cases t with
    | nil => left; rfl
    | node w f n a =>
      cases hf : find ok (.node w f n a) tok with
      | none => left; simp only [walk, hf]
      | some x =>
        right
        have hu := find_unique hf
        obtain ⟨v, g, next⟩ := x
        obtain ⟨h1, h2, h3, h4⟩ := hits_mem (find_mem hf)
        simp only at h1 h2 h3 h4 hu
        obtain ⟨g', next', e, w1, _, w3⟩ := find_only hw h2 h1 hu
        rw [hf] at e
        simp only [Option.some.injEq, Prod.mk.injEq, true_and] at e
        obtain ⟨rfl, rfl⟩ := e
        have hc : ∀ ws ts, Only ok (paths next) ws ts → Only ok (paths (.node w f n a)) (v :: ws) (tok :: ts) :=
          fun ws ts h => only_cons hu (fun u r f h => (w3 u r f).mp h) h
        cases v with
        | key k =>
          have hk : k = tok := by simpa [fits] using h1
          subst hk
          simp only [walk, hf]
          rcases ih next w1 (some (.key k, g)) ps with h | ⟨ws, pre, post, g', w', qs, e1, e2, e3, e4, e5⟩
          · exact ⟨[.key k], [k], toks, g, .key k, [], rfl, by rw [h]; simp, .key .nil, h3, hc _ _ (only_nil _ _)⟩
          · exact ⟨.key k :: ws, k :: pre, post, g', w', qs, by rw [e1]; rfl, e2, .key e3, fun f hf => h4 _ (e4 f hf),
              hc _ _ e5⟩
        | param p =>
          simp only [walk, hf]
          by_cases hok : ok p tok = true
          · simp only [hok, if_true]
            rcases ih next w1 (some (.param p, g)) (ps ++ [tok]) with h | ⟨ws, pre, post, g', w', qs, e1, e2, e3, e4, e5⟩
            · exact ⟨[.param p], [tok], toks, g, .param p, [tok], rfl, by rw [h], .param hok .nil, h3, hc _ _ (only_nil _ _)⟩
            · exact ⟨.param p :: ws, tok :: pre, post, g', w', tok :: qs, by rw [e1]; rfl, by rw [e2]; simp, .param hok e3,
                fun f hf => h4 _ (e4 f hf), hc _ _ e5⟩
          · have ht : p.text = tok := by
              simp only [fits, Bool.or_eq_true, beq_iff_eq] at h1
              rcases h1 with h | h
              · exact h
              · exact absurd h hok
            subst ht
            have hok' : ok p p.text = false := by simpa using hok
            simp only [hok', Bool.false_eq_true, if_false]
            rcases ih next w1 (some (.param p, g)) ps with h | ⟨ws, pre, post, g', w', qs, e1, e2, e3, e4, e5⟩
            · exact ⟨[.param p], [p.text], toks, g, .param p, [], rfl, by rw [h]; simp, .text hok' .nil, h3,
                hc _ _ (only_nil _ _)⟩
            · exact ⟨.param p :: ws, p.text :: pre, post, g', w', qs, by rw [e1]; rfl, e2, .text hok' e3,
                fun f hf => h4 _ (e4 f hf), hc _ _ e5⟩

/-- **C228**: a line only calls a command if no other command fits it, as far as the words of that one go. -/
theorem called_only {ok : Checks} {cs : List (List Word × Nat)} {t : Tree} (hne : ∀ c ∈ cs, c.1 ≠ []) (hb : build cs = some t)
    {toks : List Str} (hn : NoText toks) {f : Nat} {ps : List Str} (h : exec ok t toks = some (f, ps)) :
    ∃ ws pre post, (ws, f) ∈ cs ∧ toks = pre ++ post ∧ Says ok ws pre ps ∧ Only ok cs ws pre := by
  obtain ⟨hwf, hp⟩ := build_spec hne hb
  unfold exec at h
  rcases walk_only (ok := ok) toks t hwf none [] with hw | ⟨ws, pre, post, g, w, qs, e1, e2, e3, e4, e5⟩
  · rw [hw] at h; simp at h
  · rw [e2] at h
    cases g with
    | none => simp at h
    | some g =>
      simp only [List.nil_append, Option.some.injEq, Prod.mk.injEq] at h
      obtain ⟨rfl, rfl⟩ := h
      exact ⟨ws, pre, post, (hp _).mp (e4 g rfl), e1, looks_says e3 fun t ht => hn t (by rw [e1]; simp [ht]),
        fun c hc => e5 c ((hp c).mpr hc)⟩

/-! ## Words in quotes -/

theorem sep_at (p : Char → Bool) (x r : Str) {d : Char} (hx : ∀ c ∈ x, p c = false) (hd : p d = true) :
    sep p (x ++ d :: r) = (x, some r) := by
  induction x with
  | nil => show sep p (d :: r) = _; unfold sep; rw [if_pos hd]
  | cons c cs ih =>
    have := hx c (by simp)
    show sep p (c :: (cs ++ d :: r)) = _
    unfold sep
    rw [this, ih fun d hd => hx d (by simp [hd])]
    rfl

/-- **C228**: a word, and what is in quotes behind it, with its blanks, are tokens; so are those of the rest. -/
theorem tokens_quoted {a q r : Str} (ha : a ≠ []) (ha' : ∀ c ∈ a, blank c = false) (hq : ∀ c ∈ q, quote c = false) :
    tokens (a ++ ' ' :: '"' :: (q ++ '"' :: r)) = a :: q :: tokens r := by
  have h1 := sep_at blank a ('"' :: (q ++ '"' :: r)) (d := ' ') ha' rfl
  have h2 := sep_at quote q r (d := '"') hq rfl
  rw [tokens]
  split
  · rename_i tok h
    rw [h1] at h; simp at h
  · rename_i tok r' h
    rw [h1] at h
    simp at h
    obtain ⟨rfl, rfl⟩ := h
    rw [if_neg ha]
    simp only
    split
    · rename_i q' h
      rw [h2] at h; simp at h
    · rename_i q' r'' h
      rw [h2] at h
      simp at h
      obtain ⟨rfl, rfl⟩ := h
      rfl

/-! ## Addresses -/

/-- **C231**: a part is accepted just if it has one to three characters, which are decimal digits, or hexadecimal ones behind
`0x`. -/
theorem octet_accepted (s : Str) : octetOk s = true ↔
    1 ≤ s.length ∧ s.length ≤ 3 ∧ ((∀ c ∈ s, isDec c = true) ∨
      ∃ x h, s = '0' :: x :: h ∧ (x = 'x' ∨ x = 'X') ∧ ∀ c ∈ h, isHex c = true) := by
  have hint : intOk s = true ↔ ((∀ c ∈ s, isDec c = true) ∨
      ∃ x h, s = '0' :: x :: h ∧ (x = 'x' ∨ x = 'X') ∧ ∀ c ∈ h, isHex c = true) := by
    unfold intOk
    split
    · rename_i h
      constructor
      · intro hh; exact .inr ⟨'x', h, rfl, .inl rfl, by simpa using hh⟩
      · rintro (hh | ⟨x, h', e, _, hh⟩)
        · exact absurd (hh 'x' (by simp)) (by decide)
        · simp at e; obtain ⟨_, rfl⟩ := e; simpa using hh
    · rename_i h
      constructor
      · intro hh; exact .inr ⟨'X', h, rfl, .inr rfl, by simpa using hh⟩
      · rintro (hh | ⟨x, h', e, _, hh⟩)
        · exact absurd (hh 'X' (by simp)) (by decide)
        · simp at e; obtain ⟨_, rfl⟩ := e; simpa using hh
    · rename_i h1 h2
      constructor
      · intro hh; exact .inl (by simpa using hh)
      · rintro (hh | ⟨x, h', e, hx, hh⟩)
        · simpa using hh
        · rcases hx with rfl | rfl
          · exact absurd e (h1 h')
          · exact absurd e (h2 h')
  unfold octetOk
  simp only [Bool.and_eq_true, decide_eq_true_eq, hint]
  constructor
  · rintro ⟨⟨h1, h2⟩, h3⟩; exact ⟨by omega, h1, h3⟩
  · rintro ⟨h1, h2, h3⟩; exact ⟨⟨h2, by omega⟩, h3⟩

theorem loop_short_mono (n : Nat) : ∀ (s : Str) (k k' : Chk), s.length ≤ n → ip6loop s k = some k' → k.short = true →
    k'.short = true := by
  induction n with
  | zero =>
    intro s k k' hn h hs
    have : s = [] := List.length_eq_zero_iff.mp (by omega)
    subst this
    rw [loop_nil] at h
    simp at h; subst h; exact hs
  | succ n ih =>
    intro s k k' hn h hs
    cases s with
    | nil => rw [loop_nil] at h; simp at h; subst h; exact hs
    | cons c r =>
      simp only [List.length_cons] at hn
      rw [ip6loop] at h
      split at h
      · exact ih _ _ _ (by omega) h (by simp [hs])
      · split at h
        · split at h
          · simp at h
          · exact ih _ _ _ (by have := (List.dropWhile_sublist (l := r) isHex).length_le; omega) h hs
        · simp at h

/-- What is accepted without two colons in a row, behind a group. -/
theorem loop_groups (n : Nat) : ∀ (s : Str) (m g : Nat) (k' : Chk), s.length ≤ n → (∀ c, s.head? = some c → isHex c = false) →
    ip6loop s ⟨false, m, g, false⟩ = some k' → (k'.short = true ∧ ∃ a b, s = a ++ ':' :: ':' :: b) ∨
    ∃ (gs : List Str) (tail : Str), (∀ x ∈ gs, Hex4 x) ∧ s = gs.flatMap (fun x => ':' :: x) ++ tail ∧ (tail = [] ∨ tail = [':']) ∧
      k'.groups = g + gs.length ∧ k'.colons = m + gs.length + tail.length ∧ k'.short = false := by
  induction n with
  | zero =>
    intro s m g k' hn _ h
    have : s = [] := List.length_eq_zero_iff.mp (by omega)
    subst this
    rw [loop_nil] at h
    simp at h; subst h
    exact .inr ⟨[], [], by simp, rfl, .inl rfl, rfl, rfl, rfl⟩
  | succ n ih =>
    intro s m g k' hn hh h
    cases s with
    | nil =>
      rw [loop_nil] at h
      simp at h; subst h
      exact .inr ⟨[], [], by simp, rfl, .inl rfl, rfl, rfl, rfl⟩
    | cons c r =>
      simp only [List.length_cons] at hn
      have hc := hh c rfl
      rw [ip6loop, hc] at h
      by_cases hcol : c = ':'
      · subst hcol
        rw [if_pos rfl] at h
        simp only [Bool.or_self] at h
        cases r with
        | nil =>
          rw [loop_nil] at h
          simp at h; subst h
          exact .inr ⟨[], [':'], by simp, rfl, .inr rfl, rfl, rfl, rfl⟩
        | cons d r =>
          simp only [List.length_cons] at hn
          by_cases hd : d = ':'
          · subst hd
            rw [loop_colon] at h
            exact .inl ⟨loop_short_mono _ _ _ _ (Nat.le_refl _) h (by simp), [], r, rfl⟩
          · rw [ip6loop, if_neg hd] at h
            by_cases hx : isHex d = true
            · rw [if_pos hx] at h
              by_cases hl : ((d :: r).takeWhile isHex).length > 4
              · rw [if_pos hl] at h; simp at h
              · rw [if_neg hl] at h
                simp only at h
                have hdw : d :: r = (d :: r).takeWhile isHex ++ r.dropWhile isHex := by
                  have := List.takeWhile_append_dropWhile (p := isHex) (l := d :: r)
                  rw [List.dropWhile_cons_of_pos hx] at this
                  exact this.symm
                have hg4 : Hex4 ((d :: r).takeWhile isHex) := by
                  refine ⟨by rw [List.takeWhile_cons_of_pos hx]; simp, by omega, ?_⟩
                  intro c hc
                  exact List.mem_takeWhile_imp hc
                have hd0 : ∀ c, (r.dropWhile isHex).head? = some c → isHex c = false := by
                  intro c hc
                  have := List.head?_dropWhile_not isHex r
                  rw [hc] at this
                  simpa using this
                rcases ih _ _ _ _ (by have := (List.dropWhile_sublist (l := r) isHex).length_le; omega) hd0 h with
                  ⟨e, a, b, e2⟩ | ⟨gs, tail, e1, e2, e3, e4, e5, e6⟩
                · refine .inl ⟨e, ':' :: ((d :: r).takeWhile isHex ++ a), b, ?_⟩
                  have e : d :: r = (d :: r).takeWhile isHex ++ (a ++ ':' :: ':' :: b) := by rw [← e2]; exact hdw
                  exact (congrArg (':' :: ·) e).trans (by simp)
                · refine .inr ⟨(d :: r).takeWhile isHex :: gs, tail, ?_, ?_, e3, ?_, ?_, e6⟩
                  · intro x hx'
                    simp only [List.mem_cons] at hx'
                    rcases hx' with rfl | hx'
                    · exact hg4
                    · exact e1 x hx'
                  · simp only [List.flatMap_cons, List.cons_append, List.append_assoc]
                    rw [← e2, ← hdw]
                  · rw [e4]; simp; omega
                  · rw [e5]; simp; omega
            · rw [if_neg hx] at h; simp at h
      · rw [if_neg hcol, if_neg (by simp)] at h
        simp at h

theorem join_flat (g : Str) (gs : List Str) : join (g :: gs) = g ++ gs.flatMap (fun x => ':' :: x) := by
  induction gs generalizing g with
  | nil => simp [join]
  | cons h hs ih =>
    show g ++ ':' :: join (h :: hs) = _
    rw [ih]
    simp

/-- **C232**: without two colons in a row only eight groups are accepted. -/
theorem ip6_accepted {s : Str} (h : ip6addrOk s = true) :
    (∃ gs, (∀ g ∈ gs, Hex4 g) ∧ gs.length = 8 ∧ s = join gs) ∨ ∃ a b, s = a ++ ':' :: ':' :: b := by
  unfold ip6addrOk at h
  split at h
  · simp at h
  · rename_i k hk
    by_cases hhex : ∀ c, s.head? = some c → isHex c = false
    · rcases loop_groups _ s 0 0 k (Nat.le_refl _) hhex hk with ⟨_, e⟩ | ⟨gs, tail, e1, e2, e3, e4, e5, e6⟩
      · exact .inr e
      · rw [e6] at h
        simp at h
        omega
    · cases s with
      | nil => simp at hhex
      | cons d r =>
        have hx : isHex d = true := by simpa using hhex
        have hdw : d :: r = (d :: r).takeWhile isHex ++ r.dropWhile isHex := by
          have := List.takeWhile_append_dropWhile (p := isHex) (l := d :: r)
          rw [List.dropWhile_cons_of_pos hx] at this
          exact this.symm
        rw [ip6loop, if_neg (hex_colon hx), if_pos hx] at hk
        by_cases hl : ((d :: r).takeWhile isHex).length > 4
        · rw [if_pos hl] at hk; simp at hk
        · rw [if_neg hl] at hk
          simp only at hk
          have hg4 : Hex4 ((d :: r).takeWhile isHex) := by
            refine ⟨by rw [List.takeWhile_cons_of_pos hx]; simp, by omega, ?_⟩
            intro c hc
            exact List.mem_takeWhile_imp hc
          have hd0 : ∀ c, (r.dropWhile isHex).head? = some c → isHex c = false := by
            intro c hc
            have := List.head?_dropWhile_not isHex r
            rw [hc] at this
            simpa using this
          rcases loop_groups _ _ _ _ k (Nat.le_refl _) hd0 hk with ⟨_, a, b, e⟩ | ⟨gs, tail, e1, e2, e3, e4, e5, e6⟩
          · right
            refine ⟨(d :: r).takeWhile isHex ++ a, b, ?_⟩
            rw [List.append_assoc, ← e]
            exact hdw
          · left
            rw [e6] at h
            simp at h
            have ht : tail = [] := by
              rcases e3 with rfl | rfl
              · rfl
              · simp at e5; omega
            subst ht
            refine ⟨(d :: r).takeWhile isHex :: gs, ?_, by simp; omega, ?_⟩
            · intro x hx'
              simp only [List.mem_cons] at hx'
              rcases hx' with rfl | hx'
              · exact hg4
              · exact e1 x hx'
            · rw [join_flat]
              rw [List.append_nil] at e2
              rw [← e2]
              exact hdw

theorem digit_lt {c : Char} (h : isHex c = true) : digit c < 16 := by
  unfold digit
  have h' := h
  unfold isHex at h'
  split
  · rename_i hd
    unfold isDec at hd
    simp only [Bool.and_eq_true, decide_eq_true_eq, Char.le_def, UInt32.le_iff_toNat_le] at hd
    have : c.toNat = c.val.toNat := rfl
    have e : ('9' : Char).val.toNat = 57 := rfl
    omega
  · rename_i hd
    split
    · rename_i hd
      simp only [Bool.and_eq_true, decide_eq_true_eq, Char.le_def, UInt32.le_iff_toNat_le] at hd
      have : c.toNat = c.val.toNat := rfl
      have e : ('f' : Char).val.toNat = 102 := rfl
      omega
    · rename_i hd2
      split
      · rename_i hd
        simp only [Bool.and_eq_true, decide_eq_true_eq, Char.le_def, UInt32.le_iff_toNat_le] at hd
        have : c.toNat = c.val.toNat := rfl
        have e : ('F' : Char).val.toNat = 70 := rfl
        omega
      · rename_i hd3
        simp_all

theorem value_lt {s : Str} (h : ∀ c ∈ s, isHex c = true) : value 16 s < 16 ^ s.length := by
  have : ∀ (s : Str) (n k : Nat), (∀ c ∈ s, isHex c = true) → n < 16 ^ k →
      s.foldl (fun n c => n * 16 + digit c) n < 16 ^ (k + s.length) := by
    intro s
    induction s with
    | nil => intro n k _ h; simpa using h
    | cons c s ih =>
      intro n k hs hn
      simp only [List.foldl_cons, List.length_cons]
      have := ih (n * 16 + digit c) (k + 1) (fun d hd => hs d (by simp [hd])) (by
        have := digit_lt (hs c (by simp))
        rw [Nat.pow_succ]; omega)
      rwa [show k + (s.length + 1) = k + 1 + s.length by omega]
  have := this s 0 0 h (by simp)
  simpa [value] using this

/-- **C232**: the bytes of an address are its groups, of 16 bits each, the higher byte first. -/
theorem bytes_exact {gs : List Str} (hg : ∀ g ∈ gs, Hex4 g) {i : Nat} {g : Str} (hi : gs[i]? = some g) :
    bytesOf (vals gs) (2 * i) * 256 + bytesOf (vals gs) (2 * i + 1) = value 16 g ∧ bytesOf (vals gs) (2 * i) < 256 ∧
    bytesOf (vals gs) (2 * i + 1) < 256 := by
  have hm := hg g (List.mem_of_getElem? hi)
  have hv : value 16 g < 65536 := by
    have h1 := value_lt hm.2.2
    have h2 : 16 ^ g.length ≤ 16 ^ 4 := Nat.pow_le_pow_right (by omega) hm.2.1
    omega
  have hget : (vals gs).getD i 0 = value 16 g := by
    simp [vals, List.getD_eq_getElem?_getD, hi]
  unfold bytesOf
  rw [if_pos (by omega), if_neg (by omega), show 2 * i / 2 = i by omega, show (2 * i + 1) / 2 = i by omega, hget]
  omega

/-- Words in quotes. -/
example : tokens "alias set x \"loglevel set debug\"".toList =
    ["alias".toList, "set".toList, "x".toList, "loglevel set debug".toList] := by decide +kernel

/-- Seven groups are refused, eight are not. -/
example : ip6addrOk "1:2:3:4:5:6:7".toList = false ∧ ip6addrOk "1:2:3:4:5:6:7:8".toList = true := by decide +kernel

end Verif.Cli
