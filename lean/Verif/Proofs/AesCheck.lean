import Verif.Proofs.AesBits
import Verif.Proofs.Cert

/-!
# A checker for an AES-128 circuit

The wires between two rounds are sums of variables: the bits of the last round key and the outputs of the AND gates of the round.
A sum is a number: bit 0 is the constant, bit `i` is variable `i`. The lines inside a substitution box are checked with truth tables
over the eight bits of its input. At the end of each round the sums of all bits of the state and of the round key are known; they
are the input of the next round.

What follows from a round depends on its certificate alone: the variables of the certificate and the linear lines give the sums after
the round (`after`), and the check of the round (`subst`) shows that they are right. So the rounds are checked one by one.
-/

namespace CC.Aes
open CC CC.Bundled

noncomputable section

/-! ### homomorphisms from numbers to bits -/

/-- `φ` takes exclusive or to exclusive or and `one` to `true` -/
structure Hom (φ : Nat → Bool) (one : Nat) : Prop where
  xor : ∀ x y, φ (Nat.xor x y) = Bool.xor (φ x) (φ y)
  one : φ one = true

theorem Hom.zero {φ : Nat → Bool} {one : Nat} (h : Hom φ one) : φ 0 = false := by
  have := h.xor 0 0
  have e : Nat.xor 0 0 = 0 := rfl
  rw [e] at this
  cases h0 : φ 0 with
  | false => rfl
  | true => rw [h0] at this; cases this

theorem hom_testBit {full i : Nat} (h : full.testBit i = true) : Hom (fun t => t.testBit i) full :=
  ⟨fun x y => Nat.testBit_xor x y i, h⟩

/-- the sum of the variables in `m`, where `vs` has the values of the variables -/
def par : List Bool → Nat → Bool
  | [], _ => false
  | v :: vs, m => (m.testBit 0 && v) ^^ par vs (m >>> 1)

theorem par_xor : ∀ (vs : List Bool) (x y : Nat), par vs (x ^^^ y) = (par vs x ^^ par vs y)
  | [], _, _ => rfl
  | v :: vs, x, y => by
    simp only [par, Nat.shiftRight_xor_distrib, par_xor vs, Nat.testBit_xor]
    cases x.testBit 0 <;> cases y.testBit 0 <;> cases v <;> cases par vs (x >>> 1) <;> cases par vs (y >>> 1) <;> rfl

theorem par_zero : ∀ vs : List Bool, par vs 0 = false
  | [] => rfl
  | v :: vs => by simp [par, par_zero vs]

theorem hom_par (vs : List Bool) : Hom (par (true :: vs)) 1 := by
  refine ⟨par_xor _, ?_⟩
  show ((Nat.testBit 1 0 && true) ^^ par vs (1 >>> 1)) = true
  rw [show 1 >>> 1 = 0 from rfl, par_zero]; rfl

/-- `φ` gives the variables `v`, `2 * v`, … the values in the list -/
def Vars (φ : Nat → Bool) : Nat → List Bool → Prop
  | _, [] => True
  | v, b :: bs => φ v = b ∧ Vars φ (Nat.mul 2 v) bs

theorem par_vars (pre : List Bool) : ∀ (bs : List Bool), Vars (par (pre ++ bs)) (2 ^ pre.length) bs := by
  have h1 : ∀ (pre : List Bool) (b : Bool) (bs : List Bool), par (pre ++ b :: bs) (2 ^ pre.length) = b := by
    intro pre b bs
    induction pre with
    | nil => show ((Nat.testBit 1 0 && b) ^^ par bs (1 >>> 1)) = b; rw [show 1 >>> 1 = 0 from rfl, par_zero]; simp
    | cons c pre ih =>
      show ((Nat.testBit (2 ^ (pre.length + 1)) 0 && c) ^^ par (pre ++ b :: bs) (2 ^ (pre.length + 1) >>> 1)) = b
      rw [Nat.testBit_zero, Nat.pow_succ, Nat.mul_mod_left, Nat.shiftRight_eq_div_pow, Nat.pow_one, Nat.mul_div_cancel _ (by decide), ih]
      simp
  intro bs
  induction bs generalizing pre with
  | nil => trivial
  | cons b bs ih =>
    refine ⟨h1 pre b bs, ?_⟩
    have := ih (pre ++ [b])
    rw [List.append_assoc, List.length_append, List.length_singleton, Nat.pow_succ, Nat.mul_comm] at this
    exact this

theorem Vars.append {φ : Nat → Bool} : ∀ {bs cs : List Bool} {v : Nat}, Vars φ v (bs ++ cs) →
    Vars φ v bs ∧ Vars φ (2 ^ bs.length * v) cs
  | [], cs, v, h => ⟨trivial, by simpa using h⟩
  | b :: bs, cs, v, h => by
    obtain ⟨h1, h2⟩ := h
    obtain ⟨h3, h4⟩ := Vars.append h2
    refine ⟨⟨h1, h3⟩, ?_⟩
    rw [List.length_cons, Nat.pow_succ, Nat.mul_assoc]
    exact h4

/-! ### wires and their sums -/

inductive Trie where
  | nil
  | leaf (w m : Nat)
  | node (l r : Trie)

/-- `x` if `n` is zero, `y` otherwise -/
abbrev ifz (n : Nat) (x y : Bool) : Bool := Nat.rec (motive := fun _ => Bool) x (fun _ _ => y) n

theorem ifz_sound {n : Nat} {x y : Bool} (h : ifz n x y = true) : x = true ∨ y = true := by
  cases n with
  | zero => exact .inl h
  | succ n => exact .inr h

/-- the sum of wire `w`; `p` is the rest of the path -/
def Trie.get (t : Trie) : Nat → Nat → (Nat → Bool) → Bool :=
  Trie.rec (fun _ _ _ => false) (fun w' m _ w k => Bool.rec false (k m) (Nat.beq w' w))
    (fun _ _ gl gr p w k => Nat.rec (motive := fun _ => Bool) (gl (Nat.shiftRight p 1) w k) (fun _ _ => gr (Nat.shiftRight p 1) w k)
      (Nat.land p 1)) t

def Trie.put (d : Nat) : Trie → Nat → Nat → Nat → (Trie → Bool) → Bool :=
  Nat.rec (fun _ _ w m k => k (.leaf w m))
    (fun _ put t p w m k => Trie.rec
      (Nat.rec (motive := fun _ => Bool) (put .nil (Nat.shiftRight p 1) w m fun l => k (.node l .nil))
        (fun _ _ => put .nil (Nat.shiftRight p 1) w m fun r => k (.node .nil r)) (Nat.land p 1))
      (fun _ _ => Nat.rec (motive := fun _ => Bool) (put .nil (Nat.shiftRight p 1) w m fun l => k (.node l .nil))
        (fun _ _ => put .nil (Nat.shiftRight p 1) w m fun r => k (.node .nil r)) (Nat.land p 1))
      (fun l r _ _ => Nat.rec (motive := fun _ => Bool) (put l (Nat.shiftRight p 1) w m fun l => k (.node l r))
        (fun _ _ => put r (Nat.shiftRight p 1) w m fun r => k (.node l r)) (Nat.land p 1)) t) d

variable (W : Nat → Bool)

/-- all wires in the trie have the values of their sums -/
def Trie.Right (φ : Nat → Bool) : Trie → Prop
  | .nil => True
  | .leaf w m => W w = φ m
  | .node l r => l.Right φ ∧ r.Right φ

variable {W}

theorem Trie.get_sound {φ : Nat → Bool} {w : Nat} {k : Nat → Bool} : ∀ {t : Trie} {p : Nat}, t.get p w k = true → t.Right W φ →
    ∃ m, W w = φ m ∧ k m = true
  | .nil, p, h, _ => by cases h
  | .leaf w' m, p, h, hr => by
    change Bool.rec false (k m) (Nat.beq w' w) = true at h
    cases e : Nat.beq w' w with
    | false => rw [e] at h; cases h
    | true =>
      rw [e] at h
      have := Nat.eq_of_beq_eq_true e
      subst this
      exact ⟨m, hr, h⟩
  | .node l r, p, h, hr => by
    rcases ifz_sound (n := Nat.land p 1) h with h | h
    · exact Trie.get_sound (t := l) h hr.1
    · exact Trie.get_sound (t := r) h hr.2

theorem Trie.put_sound {φ : Nat → Bool} {w m : Nat} (hw : W w = φ m) : ∀ {d : Nat} {t : Trie} {p : Nat} {k : Trie → Bool},
    put d t p w m k = true → t.Right W φ → ∃ t' : Trie, t'.Right W φ ∧ k t' = true
  | 0, t, p, k, h, hr => ⟨.leaf w m, hw, h⟩
  | d + 1, .node l r, p, k, h, hr => by
    rcases ifz_sound (n := Nat.land p 1) h with h | h
    · obtain ⟨l', h1, h2⟩ := Trie.put_sound (d := d) (t := l) hw h hr.1
      exact ⟨.node l' r, ⟨h1, hr.2⟩, h2⟩
    · obtain ⟨r', h1, h2⟩ := Trie.put_sound (d := d) (t := r) hw h hr.2
      exact ⟨.node l r', ⟨hr.1, h1⟩, h2⟩
  | d + 1, .nil, p, k, h, hr => by
    rcases ifz_sound (n := Nat.land p 1) h with h | h
    · obtain ⟨l', h1, h2⟩ := Trie.put_sound (d := d) (t := .nil) hw h trivial
      exact ⟨.node l' .nil, ⟨h1, trivial⟩, h2⟩
    · obtain ⟨r', h1, h2⟩ := Trie.put_sound (d := d) (t := .nil) hw h trivial
      exact ⟨.node .nil r', ⟨trivial, h1⟩, h2⟩
  | d + 1, .leaf w' m', p, k, h, hr => by
    rcases ifz_sound (n := Nat.land p 1) h with h | h
    · obtain ⟨l', h1, h2⟩ := Trie.put_sound (d := d) (t := .nil) hw h trivial
      exact ⟨.node l' .nil, ⟨h1, trivial⟩, h2⟩
    · obtain ⟨r', h1, h2⟩ := Trie.put_sound (d := d) (t := .nil) hw h trivial
      exact ⟨.node .nil r', ⟨trivial, h1⟩, h2⟩

/-- add wires -/
def puts : Tables → Trie → (Trie → Bool) → Bool
  | [], t, k => k t
  | (w, m) :: l, t, k => Trie.put 16 t w w m fun t => puts l t k

/-- the wires have the values of their sums -/
def RightL (W : Nat → Bool) (φ : Nat → Bool) (l : Tables) : Prop := ∀ e ∈ l, W e.1 = φ e.2

theorem puts_sound {φ : Nat → Bool} : ∀ {l : Tables} {t : Trie} {k : Trie → Bool}, puts l t k = true → RightL W φ l → t.Right W φ →
    ∃ t' : Trie, t'.Right W φ ∧ k t' = true
  | [], t, k, h, _, ht => ⟨t, ht, h⟩
  | (w, m) :: l, t, k, h, hl, ht => by
    unfold puts at h
    obtain ⟨t', h1, h2⟩ := Trie.put_sound (hl (w, m) (by simp)) h ht
    exact puts_sound h2 (fun e he => hl e (by simp [he])) h1

/-- wires `zs` are the variables `v`, `2 * v`, … -/
def putVars : List Nat → Nat → Trie → (Trie → Bool) → Bool
  | [], _, t, k => k t
  | z :: zs, v, t, k => Trie.put 16 t z z v fun t => force (Nat.mul 2 v) fun v => putVars zs v t k

theorem putVars_sound {φ : Nat → Bool} : ∀ {zs : List Nat} {v : Nat} {t : Trie} {k : Trie → Bool}, putVars zs v t k = true →
    Vars φ v (zs.map W) → t.Right W φ → ∃ t' : Trie, t'.Right W φ ∧ k t' = true
  | [], v, t, k, h, _, ht => ⟨t, ht, h⟩
  | z :: zs, v, t, k, h, hv, ht => by
    unfold putVars at h
    simp only [force_eq] at h
    obtain ⟨t', h1, h2⟩ := Trie.put_sound hv.1.symm h ht
    exact putVars_sound h2 hv.2 h1

section checker
variable (d : List Nat) (n : Nat)

/-! ### linear lines -/

def linLine (t : Trie) (x : Nat) (k : Trie → Bool) : Bool :=
  parts x fun op a b o => t.get a a fun s =>
    match op with
    | 0 => t.get b b fun u => force (Nat.xor s u) fun m => Trie.put 16 t o o m k
    | 1 => false
    | _ + 2 => force (Nat.xor s 1) fun m => Trie.put 16 t o o m k

/-- at most `l` lines; the certificate has their positions plus one -/
def lin1 : Nat → Nat → Trie → (Trie → Bool) → Bool
  | 0, _, t, k => k t
  | l + 1, c, t, k => cond (Nat.beq c 0) (k t) (field c fun p c => force (Nat.sub p 1) fun p => withLine d n p fun x =>
      linLine t x fun t => lin1 l c t k)

def lin : List Nat → Trie → (Trie → Bool) → Bool
  | [], t, k => k t
  | c :: cs, t, k => lin1 d n 64 c t fun t => lin cs t k

variable {d n}

theorem linLine_sound {φ : Nat → Bool} (hφ : Hom φ 1) {t : Trie} {x : Nat} {k : Trie → Bool} (h : linLine t x k = true)
    (ht : t.Right W φ) (hx : Sat W x) : ∃ t' : Trie, t'.Right W φ ∧ k t' = true := by
  unfold linLine at h
  rw [parts_eq] at h
  obtain ⟨s, hs, h⟩ := Trie.get_sound h ht
  unfold Sat at hx
  rcases op_cases x with hop | hop | ⟨j, hop⟩ <;> simp only [hop] at h hx
  · obtain ⟨u, hu, h⟩ := Trie.get_sound h ht
    rw [force_eq] at h
    refine Trie.put_sound ?_ h ht
    rw [hφ.xor, hx, hs, hu]
  · cases h
  · rw [force_eq] at h
    refine Trie.put_sound ?_ h ht
    rw [hφ.xor, hx, hs, hφ.one]
    cases φ s <;> rfl

theorem lin1_sound (hd : SatAll W d n) {φ : Nat → Bool} (hφ : Hom φ 1) : ∀ {l c : Nat} {t : Trie} {k : Trie → Bool},
    lin1 d n l c t k = true → t.Right W φ → ∃ t' : Trie, t'.Right W φ ∧ k t' = true
  | 0, c, t, k, h, ht => ⟨t, ht, h⟩
  | l + 1, c, t, k, h, ht => by
    unfold lin1 at h
    cases e : Nat.beq c 0 with
    | true => rw [e] at h; exact ⟨t, ht, h⟩
    | false =>
      rw [e] at h
      obtain ⟨p, c', h⟩ := field_sound h
      rw [force_eq] at h
      obtain ⟨hp, h⟩ := withLine_sound h
      obtain ⟨t', h1, h2⟩ := linLine_sound hφ h ht (hd _ hp)
      exact lin1_sound hd hφ h2 h1

theorem lin_sound (hd : SatAll W d n) {φ : Nat → Bool} (hφ : Hom φ 1) : ∀ {cs : List Nat} {t : Trie} {k : Trie → Bool},
    lin d n cs t k = true → t.Right W φ → ∃ t' : Trie, t'.Right W φ ∧ k t' = true
  | [], t, k, h, ht => ⟨t, ht, h⟩
  | c :: cs, t, k, h, ht => by
    unfold lin at h
    obtain ⟨t', h1, h2⟩ := lin1_sound hd hφ h ht
    exact lin_sound hd hφ h2 h1

/-! ### from one description to another -/

theorem field_sound₂ {c : Nat} {k k' : Nat → Nat → Bool} (h : field c k = true) (h' : field c k' = true) :
    ∃ p c', k p c' = true ∧ k' p c' = true := by
  simp only [field, force_eq] at h h'
  exact ⟨_, _, h, h'⟩

/-- For each pair of a sum `m` and a new description `m'`, the certificate has a wire with the sum `m`, or its complement. The wire, or
its complement, gets the description `m'`. -/
def ins (t : Trie) (one : Nat) : List (Nat × Nat) → Nat → Tables → (Tables → Nat → Bool) → Bool
  | [], c, l, k => k l c
  | (m, m') :: ps, c, l, k => field c fun w c => field c fun f c => t.get w w fun u =>
      cond (Nat.beq f 0) (Nat.beq u m && ins t one ps c ((w, m') :: l) k)
        (force (Nat.xor m 1) fun m => Nat.beq u m && force (Nat.xor m' one) fun m' => ins t one ps c ((w, m') :: l) k)

/-- the wires that `ins` describes, without the check of their sums -/
def insOf (one : Nat) : List Nat → Nat → Tables → (Tables → Bool) → Bool
  | [], _, l, k => k l
  | m' :: ms, c, l, k => field c fun w c => field c fun f c =>
      cond (Nat.beq f 0) (insOf one ms c ((w, m') :: l) k)
        (force (Nat.xor m' one) fun m' => insOf one ms c ((w, m') :: l) k)

theorem ins_sound {φ ψ : Nat → Bool} {one : Nat} (hφ : Hom φ 1) (hψ : Hom ψ one) {t : Trie} (ht : t.Right W φ) :
    ∀ {ms ms' : List Nat} {c : Nat} {l : Tables} {k : Tables → Nat → Bool} {k' : Tables → Bool}, ins t one (ms.zip ms') c l k = true →
    insOf one ms' c l k' = true → ms.map φ = ms'.map ψ → RightL W ψ l → ∃ l', (∃ c', k l' c' = true) ∧ k' l' = true ∧ RightL W ψ l'
  | [], [], c, l, k, k', h, h', _, hl => ⟨l, ⟨c, h⟩, h', hl⟩
  | m :: ms, m' :: ms', c, l, k, k', h, h', hp, hl => by
    rw [List.zip_cons_cons] at h
    unfold ins at h
    unfold insOf at h'
    obtain ⟨w, c, h, h'⟩ := field_sound₂ h h'
    obtain ⟨f, c, h, h'⟩ := field_sound₂ h h'
    obtain ⟨u, hu, h⟩ := Trie.get_sound h ht
    obtain ⟨hm, hps⟩ := List.cons.inj hp
    cases e : Nat.beq f 0 with
    | true =>
      rw [e] at h h'
      simp only [cond_true, Bool.and_eq_true, Nat.beq_eq] at h h'
      obtain ⟨e1, h⟩ := h
      refine ins_sound hφ hψ ht h h' hps ?_
      intro x hx
      rcases List.mem_cons.mp hx with rfl | hx
      · show W w = ψ m'
        rw [hu, e1, hm]
      · exact hl x hx
    | false =>
      rw [e] at h h'
      simp only [cond_false, force_eq, Bool.and_eq_true, Nat.beq_eq] at h h'
      obtain ⟨e1, h⟩ := h
      refine ins_sound hφ hψ ht h h' hps ?_
      intro x hx
      rcases List.mem_cons.mp hx with rfl | hx
      · show W w = ψ (Nat.xor m' one)
        rw [hu, e1, hφ.xor, hψ.xor, hm, hφ.one, hψ.one]
      · exact hl x hx
  | [], _ :: _, _, _, _, _, _, _, h, _ => by cases h
  | _ :: _, [], _, _, _, _, _, _, h, _ => by cases h

/-! ### substitution boxes -/

/-- the sum of the elements chosen by the bits of `y` -/
def sel : List Nat → Nat → Nat
  | [], _ => 0
  | m :: ms, y => cond (Nat.beq (Nat.land y 1) 1) (Nat.xor m (sel ms (Nat.shiftRight y 1))) (sel ms (Nat.shiftRight y 1))

theorem sel_eq {φ ψ : Nat → Bool} {o o' : Nat} (hφ : Hom φ o) (hψ : Hom ψ o') : ∀ {ms ms' : List Nat} (y : Nat),
    ms.map φ = ms'.map ψ → φ (sel ms y) = ψ (sel ms' y)
  | [], [], y, _ => by
    show φ 0 = ψ 0
    rw [hφ.zero, hψ.zero]
  | m :: ms, m' :: ms', y, h => by
    obtain ⟨h1, h2⟩ := List.cons.inj h
    have ih := sel_eq hφ hψ (Nat.shiftRight y 1) h2
    unfold sel
    cases Nat.beq (Nat.land y 1) 1 with
    | true =>
      show φ (Nat.xor _ _) = ψ (Nat.xor _ _)
      rw [hφ.xor, hψ.xor, h1, ih]
    | false => exact ih
  | [], _ :: _, _, h => by cases h
  | _ :: _, [], _, h => by cases h

/-- The certificate has `l` wires with sums of elements of `ms`, and which elements they are. The wires get the descriptions in `ms'`. -/
def choose (t : Trie) (ms ms' : List Nat) : Nat → Nat → Tables → (Tables → Nat → Bool) → Bool
  | 0, c, l, k => k l c
  | j + 1, c, l, k => field c fun w c => field c fun y c => t.get w w fun u =>
      Nat.beq u (sel ms y) && force (sel ms' y) fun m => choose t ms ms' j c ((w, m) :: l) k

theorem choose_sound {φ ψ : Nat → Bool} {o o' : Nat} (hφ : Hom φ o) (hψ : Hom ψ o') {t : Trie} (ht : t.Right W φ) {ms ms' : List Nat}
    (hm : ms.map φ = ms'.map ψ) : ∀ {j c : Nat} {l : Tables} {k : Tables → Nat → Bool}, choose t ms ms' j c l k = true →
    RightL W ψ l → ∃ l' c', RightL W ψ l' ∧ k l' c' = true
  | 0, c, l, k, h, hl => ⟨l, c, hl, h⟩
  | j + 1, c, l, k, h, hl => by
    unfold choose at h
    obtain ⟨w, c, h⟩ := field_sound h
    obtain ⟨y, c, h⟩ := field_sound h
    obtain ⟨u, hu, h⟩ := Trie.get_sound h ht
    simp only [force_eq, Bool.and_eq_true, Nat.beq_eq] at h
    obtain ⟨e, h⟩ := h
    refine choose_sound hφ hψ ht hm h ?_
    intro x hx
    rcases List.mem_cons.mp hx with rfl | hx
    · show W w = ψ (sel ms' y)
      rw [hu, e, sel_eq hφ hψ y hm]
    · exact hl x hx

/-- truth tables and variables of the next `l` AND gates -/
def outs (m : Tables) : Nat → Nat → List Nat → (List Nat → List Nat → Nat → List Nat → Bool) → Bool
  | 0, v, zs, k => k [] [] v zs
  | l + 1, v, z :: zs, k => table m z fun t => force (Nat.mul 2 v) fun v' => outs m l v' zs fun ts ms v' zs =>
      k (t :: ts) (v :: ms) v' zs
  | _ + 1, _, [], _ => false

/-- the variables of the next `l` AND gates -/
def outsOf : Nat → Nat → List Nat → (List Nat → Nat → List Nat → Bool) → Bool
  | 0, v, zs, k => k [] v zs
  | l + 1, v, _ :: zs, k => force (Nat.mul 2 v) fun v' => outsOf l v' zs fun ms v' zs => k (v :: ms) v' zs
  | _ + 1, _, [], _ => false

theorem outs_sound {φ : Nat → Bool} {i : Nat} {m : Tables} (hm : Right W i m) : ∀ {l v : Nat} {zs : List Nat}
    {k : List Nat → List Nat → Nat → List Nat → Bool} {k' : List Nat → Nat → List Nat → Bool}, outs m l v zs k = true →
    outsOf l v zs k' = true → Vars φ v (zs.map W) →
    ∃ ts ms v' zs', k ts ms v' zs' = true ∧ k' ms v' zs' = true ∧ Vars φ v' (zs'.map W) ∧ ts.map (fun t => t.testBit i) = ms.map φ
  | 0, v, zs, k, k', h, h', hv => ⟨[], [], v, zs, h, h', hv, rfl⟩
  | l + 1, v, z :: zs, k, k', h, h', hv => by
    unfold outs at h
    unfold outsOf at h'
    obtain ⟨t, ht, h⟩ := table_sound h hm
    rw [force_eq] at h h'
    obtain ⟨ts, ms, v', zs', h, h', h1, h2⟩ := outs_sound hm h h' hv.2
    refine ⟨_, _, v', zs', h, h', h1, ?_⟩
    simp only [List.map_cons, h2]
    rw [← ht, hv.1]
  | l + 1, v, [], k, k', h, _, _ => by cases h

/-- all 256 bits -/
def full : Nat := 2 ^ 256 - 1

/-- a bit of the output: `y` chooses AND gates whose sum is the bit with truth table `t` -/
def outBit (ts : List Nat) (y t : Nat) (k : Bool) : Bool := Nat.beq (sel ts y) t && k

def forceB (x : B Nat) (k : B Nat → Bool) : Bool :=
  force x.b7 fun b7 => force x.b6 fun b6 => force x.b5 fun b5 => force x.b4 fun b4 =>
    force x.b3 fun b3 => force x.b2 fun b2 => force x.b1 fun b1 => force x.b0 fun b0 => k ⟨b7, b6, b5, b4, b3, b2, b1, b0⟩

def forceCol (x : Col Nat) (k : Col Nat → Bool) : Bool :=
  forceB x.r0 fun r0 => forceB x.r1 fun r1 => forceB x.r2 fun r2 => forceB x.r3 fun r3 => k ⟨r0, r1, r2, r3⟩

def forceSt (x : St Nat) (k : St Nat → Bool) : Bool :=
  forceCol x.c0 fun c0 => forceCol x.c1 fun c1 => forceCol x.c2 fun c2 => forceCol x.c3 fun c3 => k ⟨c0, c1, c2, c3⟩

@[simp] theorem forceB_eq (x : B Nat) (k : B Nat → Bool) : forceB x k = k x := by simp only [forceB, force_eq]
@[simp] theorem forceCol_eq (x : Col Nat) (k : Col Nat → Bool) : forceCol x k = k x := by simp only [forceCol, forceB_eq]
@[simp] theorem forceSt_eq (x : St Nat) (k : St Nat → Bool) : forceSt x k = k x := by simp only [forceSt, forceCol_eq]

variable (d n)

/-- A substitution box with input `x`. The certificate has the number of a pattern `ys` that says which AND gates are added to obtain
the output, the number of lines, eight wires that determine the input, and the lines. -/
def box (ys : Nat → B Nat) (t : Trie) (x : B Nat) (c v : Nat) (zs : List Nat) (k : Nat → List Nat → Bool) : Bool :=
  field c fun p c => field c fun l c =>
    choose t (1 :: x.list) [full, base7, base6, base5, base4, base3, base2, base1, base0] 8 c [] fun m c =>
      runLines d n full l c m fun m _ => outs m 34 v zs fun ts _ v zs =>
        outBit (full :: ts) (ys p).b7 sub7 <| outBit (full :: ts) (ys p).b6 sub6 <|
        outBit (full :: ts) (ys p).b5 sub5 <| outBit (full :: ts) (ys p).b4 sub4 <|
        outBit (full :: ts) (ys p).b3 sub3 <| outBit (full :: ts) (ys p).b2 sub2 <|
        outBit (full :: ts) (ys p).b1 sub1 <| outBit (full :: ts) (ys p).b0 sub0 <| k v zs

/-- the sums of the output of the box -/
def boxOf (ys : Nat → B Nat) (c v : Nat) (zs : List Nat) (k : B Nat → Nat → List Nat → Bool) : Bool :=
  field c fun p _ => outsOf 34 v zs fun ms v zs => forceB ((ys p).map (sel (1 :: ms))) fun y => k y v zs

variable {d n}

theorem box_sound (hd : SatAll W d n) {φ ψ : Nat → Bool} (hφ : Hom φ 1) (hψ : Hom ψ 1) {ys : Nat → B Nat} {t : Trie}
    (ht : t.Right W φ) {x : B Nat} {c v : Nat} {zs : List Nat} {k : Nat → List Nat → Bool} {k' : B Nat → Nat → List Nat → Bool}
    (h : box d n ys t x c v zs k = true) (h' : boxOf ys c v zs k' = true) (hv : Vars ψ v (zs.map W)) :
    ∃ (y : B Nat) (v' : Nat) (zs' : List Nat), k v' zs' = true ∧ k' y v' zs' = true ∧ Vars ψ v' (zs'.map W) ∧
      y.map ψ = (x.map φ).sub := by
  unfold box at h
  unfold boxOf at h'
  obtain ⟨p, c, h, h'⟩ := field_sound₂ h h'
  obtain ⟨l, c, h⟩ := field_sound h
  have hb := B.base (x.map φ)
  generalize hi : (x.map φ).num = i at hb
  have hi256 : i < 256 := hi ▸ B.num_lt _
  have hf : full.testBit i = true := by
    unfold full
    rw [Nat.testBit_two_pow_sub_one]; simpa using hi256
  obtain ⟨m, c, hm, h⟩ := choose_sound hφ (hom_testBit hf) ht (by
    obtain ⟨h7, h6, h5, h4, h3, h2, h1, h0⟩ := hb
    simp only [B.list, List.map_cons, List.map_nil, hφ.one, hf, h7, h6, h5, h4, h3, h2, h1, h0]
    rfl) h (by intro e he; cases he)
  obtain ⟨m, c, h, hm⟩ := runLines_sound hd hf h hm
  obtain ⟨ts, ms, v', zs', h, h', hv', hts⟩ := outs_sound hm h h' hv
  rw [forceB_eq] at h'
  have hts : (full :: ts).map (fun t => t.testBit i) = (1 :: ms).map ψ := by
    simp only [List.map_cons, hts, hf, hψ.one]
  generalize full :: ts = ts at *
  generalize 1 :: ms = ms at *
  have hbit : ∀ {y t : Nat} {k : Bool}, outBit ts y t k = true → k = true ∧ ψ (sel ms y) = t.testBit i := by
    intro y t k h
    simp only [outBit, Bool.and_eq_true, Nat.beq_eq] at h
    refine ⟨h.2, ?_⟩
    have := sel_eq (hom_testBit hf) hψ y hts
    rw [← this, h.1]
  obtain ⟨h, h7⟩ := hbit h
  obtain ⟨h, h6⟩ := hbit h
  obtain ⟨h, h5⟩ := hbit h
  obtain ⟨h, h4⟩ := hbit h
  obtain ⟨h, h3⟩ := hbit h
  obtain ⟨h, h2⟩ := hbit h
  obtain ⟨h, h1⟩ := hbit h
  obtain ⟨h, h0⟩ := hbit h
  refine ⟨_, v', zs', h, h', hv', ?_⟩
  simp only [B.map, B.sub] at hi ⊢
  rw [hi, h7, h6, h5, h4, h3, h2, h1, h0]

variable (d n)

/-- four substitution boxes -/
def boxes (ys : Nat → B Nat) (t : Trie) (x : Col Nat) (cs : List Nat) (v : Nat) (zs : List Nat)
    (k : List Nat → Nat → List Nat → Bool) : Bool :=
  match cs with
  | c0 :: c1 :: c2 :: c3 :: cs => box d n ys t x.r0 c0 v zs fun v zs => box d n ys t x.r1 c1 v zs fun v zs =>
      box d n ys t x.r2 c2 v zs fun v zs => box d n ys t x.r3 c3 v zs fun v zs => k cs v zs
  | _ => false

/-- the sums of the outputs of four boxes -/
def boxesOf (ys : Nat → B Nat) (cs : List Nat) (v : Nat) (zs : List Nat) (k : Col Nat → List Nat → Nat → List Nat → Bool) : Bool :=
  match cs with
  | c0 :: c1 :: c2 :: c3 :: cs => boxOf ys c0 v zs fun r0 v zs => boxOf ys c1 v zs fun r1 v zs =>
      boxOf ys c2 v zs fun r2 v zs => boxOf ys c3 v zs fun r3 v zs => k ⟨r0, r1, r2, r3⟩ cs v zs
  | _ => false

variable {d n}

theorem boxes_sound (hd : SatAll W d n) {φ ψ : Nat → Bool} (hφ : Hom φ 1) (hψ : Hom ψ 1) {ys : Nat → B Nat} {t : Trie}
    (ht : t.Right W φ) {x : Col Nat} {cs : List Nat} {v : Nat} {zs : List Nat} {k : List Nat → Nat → List Nat → Bool}
    {k' : Col Nat → List Nat → Nat → List Nat → Bool} (h : boxes d n ys t x cs v zs k = true) (h' : boxesOf ys cs v zs k' = true)
    (hv : Vars ψ v (zs.map W)) :
    ∃ (y : Col Nat) (cs' : List Nat) (v' : Nat) (zs' : List Nat), k cs' v' zs' = true ∧ k' y cs' v' zs' = true ∧
      Vars ψ v' (zs'.map W) ∧ y.map ψ = (x.map φ).sub := by
  match cs, h, h' with
  | c0 :: c1 :: c2 :: c3 :: cs, h, h' =>
    obtain ⟨r0, v, zs, h, h', hv, h0⟩ := box_sound hd hφ hψ ht h h' hv
    obtain ⟨r1, v, zs, h, h', hv, h1⟩ := box_sound hd hφ hψ ht h h' hv
    obtain ⟨r2, v, zs, h, h', hv, h2⟩ := box_sound hd hφ hψ ht h h' hv
    obtain ⟨r3, v, zs, h, h', hv, h3⟩ := box_sound hd hφ hψ ht h h' hv
    exact ⟨_, _, v, zs, h, h', hv, by simp only [Col.map, Col.sub, h0, h1, h2, h3]⟩

/-! ### rounds -/

/-- the first `l` fields of a certificate -/
def unpack : Nat → Nat → List Nat
  | 0, _ => []
  | l + 1, c => Nat.land c 65535 :: unpack l (Nat.shiftRight c 16)

/-- `unpack`, evaluated -/
def unpackK : Nat → Nat → (List Nat → Bool) → Bool
  | 0, _, k => k []
  | l + 1, c, k => field c fun p c => unpackK l c fun ps => k (p :: ps)

theorem unpackK_eq : ∀ (l c : Nat) (k : List Nat → Bool), unpackK l c k = k (unpack l c)
  | 0, _, _ => rfl
  | l + 1, c, k => by simp only [unpackK, field, force_eq, unpackK_eq l, unpack]

/-- the certificate for a round: wires of the round key, AND gates, substitution boxes, and the lines after them -/
structure RoundCert where
  key : Nat
  ands : Nat
  boxes : List Nat
  lines : List Nat

/-- the variables `v`, `2 * v`, … -/
def B.vars (v : Nat) : B Nat :=
  let v1 := Nat.mul 2 v
  let v2 := Nat.mul 2 v1
  let v3 := Nat.mul 2 v2
  let v4 := Nat.mul 2 v3
  let v5 := Nat.mul 2 v4
  let v6 := Nat.mul 2 v5
  let v7 := Nat.mul 2 v6
  ⟨v, v1, v2, v3, v4, v5, v6, v7⟩

def Col.vars (v : Nat) : Col Nat := ⟨B.vars v, B.vars (2 ^ 8 * v), B.vars (2 ^ 8 * (2 ^ 8 * v)), B.vars (2 ^ 8 * (2 ^ 8 * (2 ^ 8 * v)))⟩

def St.vars (v : Nat) : St Nat :=
  ⟨Col.vars v, Col.vars (2 ^ 32 * v), Col.vars (2 ^ 32 * (2 ^ 32 * v)), Col.vars (2 ^ 32 * (2 ^ 32 * (2 ^ 32 * v)))⟩

theorem B.vars_map {φ : Nat → Bool} {v : Nat} {x : B Bool} (h : Vars φ v x.list) : (B.vars v).map φ = x := by
  obtain ⟨h7, h6, h5, h4, h3, h2, h1, h0, _⟩ := h
  simp only [B.vars, B.map, h7, h6, h5, h4, h3, h2, h1, h0]

theorem Col.vars_map {φ : Nat → Bool} {v : Nat} {x : Col Bool} (h : Vars φ v x.list) : (Col.vars v).map φ = x := by
  unfold Col.list at h
  rw [List.append_assoc, List.append_assoc] at h
  obtain ⟨h0, h⟩ := Vars.append h
  obtain ⟨h1, h⟩ := Vars.append h
  obtain ⟨h2, h3⟩ := Vars.append h
  simp only [Col.vars, Col.map]
  have e0 := B.vars_map h0
  have e1 := B.vars_map (v := 2 ^ 8 * v) h1
  have e2 := B.vars_map (v := 2 ^ 8 * (2 ^ 8 * v)) h2
  have e3 := B.vars_map (v := 2 ^ 8 * (2 ^ 8 * (2 ^ 8 * v))) h3
  rw [e0, e1, e2, e3]

theorem St.vars_map {φ : Nat → Bool} {v : Nat} {x : St Bool} (h : Vars φ v x.list) : (St.vars v).map φ = x := by
  unfold St.list at h
  rw [List.append_assoc, List.append_assoc] at h
  obtain ⟨h0, h⟩ := Vars.append h
  obtain ⟨h1, h⟩ := Vars.append h
  obtain ⟨h2, h3⟩ := Vars.append h
  simp only [St.vars, St.map]
  have e0 := Col.vars_map h0
  have e1 := Col.vars_map (v := 2 ^ 32 * v) h1
  have e2 := Col.vars_map (v := 2 ^ 32 * (2 ^ 32 * v)) h2
  have e3 := Col.vars_map (v := 2 ^ 32 * (2 ^ 32 * (2 ^ 32 * v))) h3
  rw [e0, e1, e2, e3]

/-- a bit as a sum -/
def constB (x : B Bool) : B Nat := x.map Bool.toNat

theorem constB_map {φ : Nat → Bool} (hφ : Hom φ 1) (x : B Bool) : (constB x).map φ = x := by
  have h : ∀ b : Bool, φ b.toNat = b := by
    intro b
    cases b
    · exact hφ.zero
    · exact hφ.one
  simp only [constB, B.map, h]

/-- the word that is substituted in the key schedule -/
def rotN (k : St Nat) : Col Nat := ⟨k.c3.r1, k.c3.r2, k.c3.r3, k.c3.r0⟩

/-- the linear part of a round -/
def St.lin {α : Type} (f : α → α → α) (last : Bool) (s key : St α) : St α :=
  St.add f (cond last s.shift (s.shift.mix f)) key

variable (d n)

/-- The check of a round: the wires of the round key and the substitution boxes. `s` has the sums of the state, `key` those of the
round key. -/
def subst (ys : Nat → B Nat) (s key : St Nat) (t : Trie) (c : RoundCert) : Bool :=
  unpackK 680 c.ands fun zs =>
  ins t 1 (key.list.zip (St.vars 2).list) c.key [] fun _ _ =>
  boxes d n ys t s.c0 c.boxes (2 ^ 129) zs fun cs v zs => boxes d n ys t s.c1 cs v zs fun cs v zs =>
  boxes d n ys t s.c2 cs v zs fun cs v zs => boxes d n ys t s.c3 cs v zs fun cs v zs =>
  boxes d n ys t (rotN key) cs v zs fun _ _ _ => true

/-- After a round. `k` gets the sums of the new state, those of the new round key, and the wires. -/
def after (ys : Nat → B Nat) (last : Bool) (rc : B Bool) (c : RoundCert) (k : St Nat → St Nat → Trie → Bool) : Bool :=
  unpackK 680 c.ands fun zs =>
  insOf 1 (St.vars 2).list c.key [] fun l =>
  boxesOf ys c.boxes (2 ^ 129) zs fun c0 cs v zs' => boxesOf ys cs v zs' fun c1 cs v zs' =>
  boxesOf ys cs v zs' fun c2 cs v zs' => boxesOf ys cs v zs' fun c3 cs v zs' => boxesOf ys cs v zs' fun w _ _ _ =>
  puts l .nil fun t => putVars zs (2 ^ 129) t fun t => lin d n c.lines t fun t =>
  forceSt ((St.vars 2).next Nat.xor w (constB rc)) fun key => forceSt (St.lin Nat.xor last ⟨c0, c1, c2, c3⟩ key) fun s =>
  k s key t

variable {d n}

theorem St.list_map {α β : Type} (g : α → β) (s : St α) : s.list.map g = (s.map g).list := by
  simp only [St.list, Col.list, List.map_append]
  rfl

theorem St.length_list {α : Type} (s : St α) : s.list.length = 128 := by
  simp only [St.list, Col.list, List.length_append]
  rfl

theorem two_mul_pow : 2 ^ 128 * 2 ^ 1 = 2 ^ 129 := rfl

theorem round_sound (hd : SatAll W d n) {φ : Nat → Bool} (hφ : Hom φ 1) {ys : Nat → B Nat} {last : Bool} {rc : B Bool}
    {s key : St Nat} {t : Trie} (ht : t.Right W φ) {c : RoundCert} {k : St Nat → St Nat → Trie → Bool}
    (h : subst d n ys s key t c = true) (h' : after d n ys last rc c k = true) :
    ∃ (ψ : Nat → Bool) (s' key' : St Nat) (t' : Trie), k s' key' t' = true ∧
      Hom ψ 1 ∧ t'.Right W ψ ∧ key'.map ψ = (key.map φ).next Bool.xor (key.map φ).rot.sub rc ∧
      s'.map ψ = (s.map φ).sub.lin Bool.xor last (key'.map ψ) := by
  unfold subst at h
  unfold after at h'
  rw [unpackK_eq] at h h'
  generalize unpack 680 c.ands = zs at h h'
  have hψ : Hom (par (true :: ((key.map φ).list ++ zs.map W))) 1 := hom_par _
  have hv := par_vars [true] ((key.map φ).list ++ zs.map W)
  rw [List.singleton_append] at hv
  generalize par (true :: ((key.map φ).list ++ zs.map W)) = ψ at hψ hv
  obtain ⟨hvk, hvz⟩ := Vars.append hv
  rw [St.length_list, List.length_singleton, two_mul_pow] at hvz
  have hvz' := hvz
  have hkm : (St.vars 2).map ψ = key.map φ := St.vars_map hvk
  obtain ⟨l, ⟨c1, h⟩, h', hl⟩ := ins_sound hφ hψ ht h h' (by rw [St.list_map, St.list_map, hkm]) (by intro e he; cases he)
  obtain ⟨c0, cs, v, zs', h, h', hvz, h0⟩ := boxes_sound hd hφ hψ ht h h' hvz
  obtain ⟨c1, cs, v, zs', h, h', hvz, h1⟩ := boxes_sound hd hφ hψ ht h h' hvz
  obtain ⟨c2, cs, v, zs', h, h', hvz, h2⟩ := boxes_sound hd hφ hψ ht h h' hvz
  obtain ⟨c3, cs, v, zs', h, h', hvz, h3⟩ := boxes_sound hd hφ hψ ht h h' hvz
  obtain ⟨w, cs, v, zs', h, h', hvz, hw⟩ := boxes_sound hd hφ hψ ht h h' hvz
  obtain ⟨t', ht', h'⟩ := puts_sound h' hl trivial
  obtain ⟨t', ht', h'⟩ := putVars_sound h' hvz' ht'
  obtain ⟨t', ht', h'⟩ := lin_sound hd hψ h' ht'
  rw [forceSt_eq, forceSt_eq] at h'
  refine ⟨ψ, _, _, t', h', hψ, ht', ?_, ?_⟩
  · rw [St.map_next hψ.xor, hkm, hw, constB_map hψ]
    rfl
  · unfold St.lin
    rw [St.map_add hψ.xor]
    congr 1
    have e : (St.mk c0 c1 c2 c3).map ψ = (s.map φ).sub := by
      simp only [St.map, St.sub, h0, h1, h2, h3]
    cases last with
    | true => simp only [cond_true, St.map_shift, e]
    | false => simp only [cond_false, St.map_mix hψ.xor, St.map_shift, e]

/-- wires `o`, `o + 1`, … have the given sums -/
def checkOuts (t : Trie) : List Nat → Nat → Bool
  | [], _ => true
  | m :: ms, o => (t.get o o fun u => Nat.beq u m) && force (Nat.add o 1) fun o => checkOuts t ms o

theorem checkOuts_sound {φ : Nat → Bool} {t : Trie} (ht : t.Right W φ) : ∀ {ms : List Nat} {o : Nat}, checkOuts t ms o = true →
    (List.range' o ms.length).map W = ms.map φ
  | [], _, _ => rfl
  | m :: ms, o, h => by
    simp only [checkOuts, Bool.and_eq_true, force_eq] at h
    obtain ⟨u, hu, e⟩ := Trie.get_sound h.1 ht
    rw [Nat.beq_eq] at e
    rw [List.length_cons, List.range'_succ, List.map_cons, List.map_cons, checkOuts_sound ht h.2, hu, e]

variable (d n)

/-- the wires, the state and the key before the first round; `c0` has the lines -/
def start (c0 : List Nat) (k : St Nat → St Nat → Trie → Bool) : Bool :=
  putVars (List.range' 0 256) 2 .nil fun t => lin d n c0 t fun t =>
  forceSt (St.vars (2 ^ 129)) fun key => forceSt ((St.vars 2).add Nat.xor key) fun s => k s key t

/-- A circuit with the inputs in wires 0 to 255 (block, key) and the outputs in wires `o` to `o + 127`. -/
structure Checked (ys : Nat → B Nat) (o : Nat) (c0 : List Nat) (cs : Nat → RoundCert) : Prop where
  first : (start d n c0 fun s key t => subst d n ys s key t (cs 0)) = true
  next : ∀ r < 9, (after d n ys false (B.of (Spec.Aes.rcon r)) (cs r) fun s key t => subst d n ys s key t (cs (r + 1))) = true
  last : (after d n ys true (B.of (Spec.Aes.rcon 9)) (cs 9) fun s _ t => checkOuts t s.list o) = true

variable {d n}

theorem rounds_sound (hd : SatAll W d n) {ys : Nat → B Nat} {o : Nat} {c0 : List Nat} {cs : Nat → RoundCert}
    (hc : Checked d n ys o c0 cs) {key pt : List Nat} (hk : Block key) (hp : Block pt)
    {s k : St Nat} {t : Trie} {φ : Nat → Bool} (h : subst d n ys s k t (cs 0) = true) (hφ : Hom φ 1) (ht : t.Right W φ)
    (hs : s.map φ = St.of (Spec.Aes.state key pt 0)) (hkk : k.map φ = St.of (Spec.Aes.roundKey key 0)) :
    ∀ r < 10, ∃ (ψ : Nat → Bool) (s' k' : St Nat) (t' : Trie), subst d n ys s' k' t' (cs r) = true ∧ Hom ψ 1 ∧ t'.Right W ψ ∧
      s'.map ψ = St.of (Spec.Aes.state key pt r) ∧ k'.map ψ = St.of (Spec.Aes.roundKey key r)
  | 0, _ => ⟨φ, s, k, t, h, hφ, ht, hs, hkk⟩
  | r + 1, hr => by
    obtain ⟨φ, s, k, t, h, hφ, ht, hs, hkk⟩ := rounds_sound hd hc hk hp h hφ ht hs hkk r (by omega)
    obtain ⟨ψ, s', k', t', h, hψ, ht', h1, h2⟩ := round_sound hd hφ ht h (hc.next r (by omega))
    have e : k'.map ψ = St.of (Spec.Aes.roundKey key (r + 1)) := by rw [h1, hkk, of_roundKey hk]
    refine ⟨ψ, s', k', t', h, hψ, ht', ?_, e⟩
    rw [h2, e, hs, of_state hk hp]
    rfl

theorem check_sound (hd : SatAll W d n) {ys : Nat → B Nat} {o : Nat} {c0 : List Nat} {cs : Nat → RoundCert}
    (hc : Checked d n ys o c0 cs) {key pt : List Nat} (hk : Block key) (hp : Block pt)
    (hW : (List.range' 0 256).map W = Spec.Aes.bits pt ++ Spec.Aes.bits key) :
    (List.range' o 128).map W = Spec.Aes.bits (Spec.Aes.encrypt key pt) := by
  have h := hc.first
  unfold start at h
  rw [bits_of hk.1, bits_of hp.1] at hW
  have hφ := hom_par ((List.range' 0 256).map W)
  have hv := par_vars [true] ((List.range' 0 256).map W)
  rw [List.singleton_append] at hv
  generalize par (true :: (List.range' 0 256).map W) = φ at hφ hv
  rw [List.length_singleton] at hv
  have hv' := hv
  have hv2 := hv'
  rw [hW] at hv2
  obtain ⟨hvp, hvk⟩ := Vars.append hv2
  rw [St.length_list, two_mul_pow] at hvk
  have e1 := St.vars_map hvp
  have e2 := St.vars_map hvk
  generalize List.range' 0 256 = zs at h hv'
  obtain ⟨t, ht, h⟩ := putVars_sound h hv' trivial
  obtain ⟨t, ht, h⟩ := lin_sound hd hφ h ht
  rw [forceSt_eq, forceSt_eq] at h
  obtain ⟨φ, s, k, t, h, hφ, ht, hs, hkk⟩ := rounds_sound hd hc hk hp h hφ ht (by
    have e : Spec.Aes.state key pt 0 = Spec.Aes.add pt key := rfl
    rw [St.map_add hφ.xor, e1, e2, e, of_add (hp.1.trans hk.1.symm)]) (by rw [e2]; rfl) 9 (by decide)
  obtain ⟨ψ, s', k', t', h, hψ, ht, h1, h2⟩ := round_sound hd hφ ht h hc.last
  have e : k'.map ψ = St.of (Spec.Aes.roundKey key 10) := by rw [h1, hkk, ← of_roundKey hk]
  have hs' : s'.map ψ = St.of (Spec.Aes.encrypt key pt) := by
    rw [h2, e, hs, of_encrypt hk hp]
    rfl
  have := checkOuts_sound ht h
  rw [St.list_map, hs', ← bits_of (Block.encrypt hk hp).1] at this
  exact this

end checker

end

end CC.Aes
