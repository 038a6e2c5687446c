import Verif.Model.Bristol

/-!
# Readers that know more wires

A run of the reader from a map is followed by the run from any larger map, up to the first wire that the smaller map does not have.
-/

namespace CC.Bristol

/-- errors for a wire without gate -/
def NoWire (e : Err) : Prop := (∃ n, e = .unknownWire n) ∨ e = .panic .missingKey

/-- `m'` does what `m` does, unless `m` misses a wire -/
def Follows {α β : Type} (R : α → β → Prop) (m : M α) (m' : M β) : Prop := ∀ w,
  match m w with
  | (.ok a, w1) => ∃ b, m' w = (.ok b, w1) ∧ R a b
  | (.error e, w1) => NoWire e ∨ m' w = (.error e, w1)

theorem Follows.pure {α β : Type} {R : α → β → Prop} {a : α} {b : β} (h : R a b) : Follows R (Pure.pure a : M α) (Pure.pure b : M β) :=
  fun _ => ⟨b, rfl, h⟩

theorem Follows.refl {α : Type} (m : M α) : Follows Eq m m := by
  intro w
  split
  · next h => exact ⟨_, h, rfl⟩
  · next h => exact .inr h

theorem Follows.bind {α β γ δ : Type} {R : α → β → Prop} {S : γ → δ → Prop} {m : M α} {m' : M β} {f : α → M γ} {f' : β → M δ}
    (h : Follows R m m') (hf : ∀ a b, R a b → Follows S (f a) (f' b)) : Follows S (m >>= f) (m' >>= f') := by
  intro w
  have h1 := h w
  show match (match m w with | (.ok a, w1) => f a w1 | (.error e, w1) => (.error e, w1)) with
    | (.ok a, w1) => ∃ b, (match m' w with | (.ok b, w1) => f' b w1 | (.error e, w1) => (.error e, w1)) = (.ok b, w1) ∧ S a b
    | (.error e, w1) => NoWire e ∨ (match m' w with | (.ok b, w1) => f' b w1 | (.error e, w1) => (.error e, w1)) = (.error e, w1)
  rcases e : m w with ⟨x | a, w1⟩
  · rw [e] at h1
    rcases h1 with h1 | h1
    · exact .inl h1
    · rw [h1]; exact .inr rfl
  · rw [e] at h1
    obtain ⟨b, h2, h3⟩ := h1
    rw [h2]
    exact hf a b h3 w1

/-- larger maps -/
def Sub (a b : GOW) : Prop := ∀ x g, a x = some g → b x = some g

theorem Sub.insert {a b : GOW} (h : Sub a b) (x : Nat) (g : GateId) : Sub (a.insert x g) (b.insert x g) := by
  intro y u
  simp only [Map.insert]
  split
  · exact id
  · exact h y u

theorem follows_lift {α : Type} (x : Except Err α) : Follows Eq (lift x) (lift x) := Follows.refl _

theorem follows_inputBits (r : Ref) : ∀ (k start : Nat) {a b : GOW}, Sub a b →
    Follows Sub (readInputBits r a start k) (readInputBits r b start k)
  | 0, _, _, _, h => Follows.pure h
  | k + 1, start, a, b, h => (Follows.refl (input r)).bind fun g g' e => by
    subst e
    exact follows_inputBits r k (start + 1) (h.insert start g)

theorem follows_inputs (r : Ref) : ∀ (k sum : Nat) (ts : List (List Char)) {a b : GOW}, Sub a b →
    Follows Sub (readInputs r a sum k ts) (readInputs r b sum k ts)
  | 0, _, _, _, _, h => Follows.pure h
  | k + 1, sum, ts, a, b, h => (follows_lift _).bind fun p p' e => by
    subst e
    exact (follows_inputBits r _ _ h).bind fun a b h => follows_inputs r k _ _ h

theorem operands_mono {a b : GOW} (h : Sub a b) : ∀ (k : Nat) (ts : List (List Char)),
    (∃ n, readOperands a k ts = .error (.unknownWire n)) ∨ readOperands b k ts = readOperands a k ts
  | 0, ts => .inr rfl
  | k + 1, ts => by
    unfold readOperands
    cases nextUsize ts with
    | error e => exact .inr rfl
    | ok p =>
      obtain ⟨x, ts⟩ := p
      show (∃ n, (match a x with
          | none => .error (.unknownWire x)
          | some g => readOperands a k ts >>= fun q => .ok (g :: q.1, q.2) : Except Err _) = _) ∨
        (match b x with
          | none => .error (.unknownWire x)
          | some g => readOperands b k ts >>= fun q => .ok (g :: q.1, q.2) : Except Err _) =
        (match a x with
          | none => .error (.unknownWire x)
          | some g => readOperands a k ts >>= fun q => .ok (g :: q.1, q.2) : Except Err _)
      cases e : a x with
      | none => exact .inl ⟨x, rfl⟩
      | some g =>
        rw [h x g e]
        rcases operands_mono h k ts with ⟨n, h1⟩ | h1
        · exact .inl ⟨n, by simp only [h1]; rfl⟩
        · exact .inr (by simp only [h1])

theorem tokens_mono {a b : GOW} (h : Sub a b) (ts : List (List Char)) :
    (∃ n, readGateTokens a ts = .error (.unknownWire n)) ∨ readGateTokens b ts = readGateTokens a ts := by
  unfold readGateTokens
  cases nextUsize ts with
  | error e => exact .inr rfl
  | ok p =>
    obtain ⟨m, ts⟩ := p
    simp only [bind, Except.bind]
    cases nextUsize ts with
    | error e => exact .inr rfl
    | ok p =>
      obtain ⟨m', ts⟩ := p
      simp only
      rcases operands_mono h m ts with ⟨n, h1⟩ | h1
      · exact .inl ⟨n, by simp only [h1]⟩
      · exact .inr (by simp only [h1])

theorem follows_op (r : Ref) (gs : List GateId) (ws : List Nat) (op : List Char) {a b : GOW} (h : Sub a b) :
    Follows Sub (readGateOp r a gs ws op) (readGateOp r b gs ws op) := by
  have hb : ∀ g, Follows Sub (bindOut a ws g) (bindOut b ws g) := fun g =>
    (Follows.refl (M.idx ws 0)).bind fun x x' e => by
      subst e
      exact Follows.pure (h.insert x g)
  have h2 : ∀ {γ : Type} (m : M γ) (f : γ → M GateId), Follows Sub (m >>= fun y => f y >>= fun g => bindOut a ws g)
      (m >>= fun y => f y >>= fun g => bindOut b ws g) := fun m f => (Follows.refl m).bind fun y y' e => by
    subst e
    exact (Follows.refl (f y)).bind fun g g' e => by
      subst e
      exact hb g
  unfold readGateOp
  split
  · exact h2 _ _
  split
  · exact (Follows.refl _).bind fun _ _ e => by subst e; exact h2 _ _
  split
  · exact (Follows.refl _).bind fun _ _ e => by subst e; exact h2 _ _
  split
  · exact (Follows.refl _).bind fun _ _ e => by subst e; exact h2 _ _
  split
  · exact h2 _ _
  · exact fun w => .inr rfl

theorem follows_gates (r : Ref) : ∀ (ls : List (List Char)) {a b : GOW}, Sub a b →
    Follows Sub (readGates r a ls) (readGates r b ls)
  | [], _, _, h => Follows.pure h
  | l :: ls, a, b, h => by
    unfold readGates
    split
    · exact Follows.pure h
    · have ht : Follows Eq (lift (readGateTokens a (tokensOf l))) (lift (readGateTokens b (tokensOf l))) := by
        rcases tokens_mono h (tokensOf l) with ⟨n, h1⟩ | h1
        · intro w
          rw [h1]
          exact .inl (.inl ⟨n, rfl⟩)
        · rw [h1]; exact Follows.refl _
      exact ht.bind fun p p' e => by
        subst e
        exact (follows_op r _ _ _ h).bind fun a b h => follows_gates r ls h

theorem follows_final (r : Ref) : ∀ (is : List Nat) {a b : GOW}, Sub a b → Follows Eq (readFinal r a is) (readFinal r b is)
  | [], _, _, _ => Follows.pure rfl
  | i :: is, a, b, h => by
    unfold readFinal
    cases e : a i with
    | none => exact fun w => .inl (.inr rfl)
    | some g =>
      rw [h i g e]
      exact (Follows.refl _).bind fun _ _ _ => follows_final r is h

theorem follows_read (r : Ref) (text : List Char) {a b : GOW} (h : Sub a b) : Follows Sub (read r a text) (read r b text) := by
  unfold read
  refine (follows_lift _).bind fun _ _ e => ?_
  subst e
  refine (follows_lift _).bind fun _ _ e => ?_
  subst e
  refine (follows_lift _).bind fun _ _ e => ?_
  subst e
  refine (follows_lift _).bind fun _ _ e => ?_
  subst e
  refine (follows_lift _).bind fun _ _ e => ?_
  subst e
  refine (follows_inputs r _ _ _ h).bind fun a b h => ?_
  refine (follows_lift _).bind fun _ _ e => ?_
  subst e
  refine (follows_lift _).bind fun _ _ e => ?_
  subst e
  refine (follows_lift _).bind fun _ _ e => ?_
  subst e
  refine (follows_lift _).bind fun _ _ e => ?_
  subst e
  refine (follows_gates r _ h).bind fun a b h => ?_
  split
  · exact fun w => .inr rfl
  · exact (follows_final r _ h).bind fun _ _ _ => Follows.pure h

end CC.Bristol
