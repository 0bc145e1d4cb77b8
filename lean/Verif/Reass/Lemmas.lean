import Verif.Reass.Spec
namespace Verif.Reass

/-- A stored fragment is a piece of the datagram, and if it starts at 0 its header is that of a received first
fragment. -/
def FragOK (D : Key → List UInt8) (hist : List Pkt) (f : Frag) : Prop :=
  Slice (D f.key) f.off f.data f.mf ∧
  (f.off = 0 → ∃ q ∈ hist, q.key = f.key ∧ q.off = 0 ∧ q.opts = f.opts ∧ q.ttl = f.ttl)

def ChainOK (D : Key → List UInt8) (hist : List Pkt) (c : Chain) : Prop :=
  c.frags ≠ [] ∧ ∃ k, ∀ f ∈ c.frags, f.key = k ∧ FragOK D hist f

theorem slice_drop {D : List UInt8} {off : Nat} {data : List UInt8} {mf : Bool} {n : Nat} (h : Slice D off data mf)
    (hn : n < data.length) : Slice D (off + n) (data.drop n) mf := by
  obtain ⟨h1, h2, h3⟩ := h
  refine ⟨by rw [List.length_drop]; omega, ?_, ?_⟩
  · conv => lhs; rw [h2]
    rw [List.drop_take, List.drop_drop, List.length_drop]
  · intro hm
    rw [List.length_drop]
    have := h3 hm
    omega

theorem trim_ok {D : Key → List UInt8} {hist : List Pkt} (hD : ∀ k, (D k).length ≤ 65535) {f : Frag} {n : Nat}
    (h : FragOK D hist f) (h0 : 0 < n) (hn : n < f.data.length) : FragOK D hist (f.trim n) := by
  obtain ⟨h1, _⟩ := h
  have hle := h1.1
  have := hD f.key
  have he : (f.off + n) % 65536 = f.off + n := Nat.mod_eq_of_lt (by omega)
  refine ⟨?_, ?_⟩
  · show Slice (D f.key) ((f.off + n) % 65536) (f.data.drop n) f.mf
    rw [he]
    exact slice_drop h1 hn
  · intro h
    have : (f.off + n) % 65536 = 0 := h
    omega

theorem split_mem {off : Nat} {l : List Frag} {f : Frag} :
    (f ∈ (split off l).1 ∨ f ∈ (split off l).2) ↔ f ∈ l := by
  induction l with
  | nil => simp [split]
  | cons a l ih =>
    unfold split
    split
    · simp
    · simp only [List.mem_cons, or_assoc, ih]

theorem split_append (off : Nat) (l : List Frag) : (split off l).1 ++ (split off l).2 = l := by
  induction l with
  | nil => simp [split]
  | cons a l ih =>
    unfold split
    split
    · simp
    · simp [ih]

theorem trimAfter_all (P : Frag → Prop) (hP : ∀ f n, P f → 0 < n → n < f.data.length → P (f.trim n)) :
    ∀ (l : List Frag) (prev : Frag), (∀ f ∈ l, P f) → ∀ f ∈ (trimAfter prev l).1, P f := by
  intro l
  induction l with
  | nil => intro prev _ f hf; simp [trimAfter] at hf
  | cons a l ih =>
    intro prev hl f hf
    unfold trimAfter at hf
    have hl' : ∀ f ∈ l, P f := fun f hf => hl f (List.mem_cons_of_mem _ hf)
    have ha : P a := hl a (List.mem_cons_self ..)
    split at hf
    · split at hf
      · exact ih prev hl' f hf
      · rcases List.mem_cons.1 hf with rfl | hf
        · exact hP a _ ha (by omega) (by omega)
        · exact ih _ hl' f hf
    · rcases List.mem_cons.1 hf with rfl | hf
      · exact ha
      · exact ih _ hl' f hf

theorem insert_all (P : Frag → Prop) (hP : ∀ f n, P f → 0 < n → n < f.data.length → P (f.trim n))
    {c c' : Chain} {p : Frag} {t j : UInt8} (hc : ∀ f ∈ c.frags, P f) (hp : P p) (h : insert c p t j = some c') :
    c'.frags ≠ [] ∧ ∀ f ∈ c'.frags, P f := by
  have h1 : ∀ f ∈ (split p.off c.frags).1, P f := fun f hf => hc f (split_mem.1 (Or.inl hf))
  have h2 : ∀ f ∈ (split p.off c.frags).2, P f := fun f hf => hc f (split_mem.1 (Or.inr hf))
  unfold insert at h
  simp only at h
  split at h
  · cases h
    refine ⟨by simp, fun f hf => ?_⟩
    rcases List.mem_append.1 hf with hf | hf
    · exact h1 f hf
    · simp only [List.mem_singleton] at hf; exact hf ▸ hp
  · next f0 l0 he =>
    rw [he] at h2
    split at h
    · cases h
      refine ⟨by simp, fun f hf => ?_⟩
      rcases List.mem_cons.1 hf with rfl | hf
      · exact hp
      · exact trimAfter_all P hP _ _ h2 f hf
    · split at h
      · split at h
        · cases h
        · cases h
          refine ⟨by simp, fun f hf => ?_⟩
          rcases List.mem_append.1 hf with hf | hf
          · exact h1 f hf
          · rcases List.mem_cons.1 hf with rfl | hf
            · exact hP p _ hp (by omega) (by omega)
            · exact trimAfter_all P hP _ _ h2 f hf
      · cases h
        refine ⟨by simp, fun f hf => ?_⟩
        rcases List.mem_append.1 hf with hf | hf
        · exact h1 f hf
        · rcases List.mem_cons.1 hf with rfl | hf
          · exact hp
          · exact trimAfter_all P hP _ _ h2 f hf

theorem contig_payload (D : List UInt8) : ∀ (l : List Frag) (n m : Nat), n ≤ D.length →
    (∀ f ∈ l, Slice D f.off f.data f.mf) → contig n l = some m →
    n ≤ m ∧ m ≤ D.length ∧ payload l = (D.drop n).take (m - n) ∧ (l ≠ [] → lastMf l = false → m = D.length) := by
  intro l
  induction l with
  | nil =>
    intro n m hn _ h
    simp only [contig, Option.some.injEq] at h
    subst h
    simp [payload, hn]
  | cons f l ih =>
    intro n m hn hl h
    unfold contig at h
    split at h
    · cases h
    · next ho =>
      have ho : f.off = n := by simpa using ho
      have hf := hl f (List.mem_cons_self ..)
      obtain ⟨h1, h2, h3⟩ := hf
      rw [ho] at h1 h2 h3
      obtain ⟨i1, i2, i3, i4⟩ := ih (n + f.data.length) m h1 (fun f hf => hl f (List.mem_cons_of_mem _ hf)) h
      refine ⟨by omega, i2, ?_, ?_⟩
      · have : payload (f :: l) = f.data ++ payload l := by simp [payload]
        rw [this, i3, h2]
        have e : m - n = f.data.length + (m - (n + f.data.length)) := by omega
        rw [← h2]
        conv => rhs; rw [e, List.take_add, List.drop_drop]
        rw [← h2]
      · intro _ hmf
        cases l with
        | nil =>
          simp only [contig, Option.some.injEq] at h
          subst h
          have : f.mf = false := by simpa [lastMf] using hmf
          exact h3 this
        | cons g l =>
          refine i4 (by simp) ?_
          simpa [lastMf, List.getLast?_cons] using hmf

theorem check_done {c : Chain} {hlen : Nat} {d : Dgram} (h : check c hlen = .done d) :
    ∃ f l n, c.frags = f :: l ∧ contig 0 c.frags = some n ∧ lastMf c.frags = false ∧ n + hlen ≤ 65535 ∧
      d = ⟨f.key, f.opts, f.ttl, (20 + f.opts.length + n) % 65536, payload c.frags⟩ := by
  unfold check at h
  simp only at h
  split at h
  · split at h <;> cases h
  · split at h <;> cases h
  · next n f l hc hfr =>
    split at h
    · split at h <;> cases h
    · next hmf =>
      split at h
      · cases h
      · cases h
        exact ⟨f, l, n, hfr, hc, by simpa using hmf, by omega, rfl⟩

theorem replace_mem {k : Key} {o : Option Chain} {l : List Chain} {c : Chain} (h : c ∈ replace k o l) :
    c ∈ l ∨ o = some c := by
  induction l with
  | nil => simp [replace] at h
  | cons a l ih =>
    unfold replace at h
    split at h
    · cases o with
      | none => exact Or.inl (List.mem_cons_of_mem _ h)
      | some x =>
        rcases List.mem_cons.1 h with rfl | h
        · exact Or.inr rfl
        · exact Or.inl (List.mem_cons_of_mem _ h)
    · rcases List.mem_cons.1 h with rfl | h
      · exact Or.inl (List.mem_cons_self ..)
      · rcases ih h with h | h
        · exact Or.inl (List.mem_cons_of_mem _ h)
        · exact Or.inr h

theorem ageChain_frags {c c' : Chain} (h : ageChain c = some c') : c'.frags = c.frags ∧ c'.nfrags = c.nfrags := by
  unfold ageChain at h
  split at h
  · cases h
  · cases h; exact ⟨rfl, rfl⟩

end Verif.Reass
