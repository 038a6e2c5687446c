import Verif.Proofs.BrWriteFile

/-!
# Writing two circuits of the same shape

`Twins w w' P`: related circuits have the same gates up to a renaming of gate ids (`θ` on the gates in `D`), in possibly
different heaps. `write_twin`: the writer goes through both in step, and if the second writer was used before (its wire
counter is `n0`), its wires are those of the first one renamed by `shiftWire`.
-/

namespace CC.Bristol
open CC.Spec CC.Spec.Bristol

/-- the wires of a writer whose counter was `n0`: constants (`lo ≤ · < lo + nc`) stay, the others move up -/
def shiftWire (lo nc n0 x : Nat) : Nat := if lo ≤ x ∧ x < lo + nc then x else x + n0

theorem shiftWire_zero (lo nc x : Nat) : shiftWire lo nc 0 x = x := by
  unfold shiftWire; split <;> rfl

/-- a gate line with its wires renamed -/
def relabel (σ : Nat → Nat) (l : GLine) : GLine := ⟨l.op, l.args.map σ, σ l.out⟩

/-- the same gate with its operands renamed; input numbers, module ids and lengths of module inputs may differ -/
inductive TwinGate (θ : GateId → GateId) : Gate → Gate → Prop
  | input (k k' : Nat) : TwinGate θ (.input k) (.input k')
  | const (v : Bool) : TwinGate θ (.const v) (.const v)
  | not (x : GateId) : TwinGate θ (.not x) (.not (θ x))
  | xor (x y : GateId) : TwinGate θ (.xor x y) (.xor (θ x) (θ y))
  | and (x y : GateId) : TwinGate θ (.and x y) (.and (θ x) (θ y))
  | or (x y : GateId) : TwinGate θ (.or x y) (.or (θ x) (θ y))
  | module (nIn nIn' nOut : Nat) (ids : List GateId) (oi : Nat) (mid mid' : ModuleId) :
      TwinGate θ (.module nIn nOut ids oi mid) (.module nIn' nOut (ids.map θ) oi mid')

theorem TwinGate.operands {θ gate gate'} (h : TwinGate θ gate gate') : gate'.operands = gate.operands.map θ := by
  cases h <;> rfl

theorem TwinGate.str {θ gate gate'} (h : TwinGate θ gate gate') : gateStr gate' = gateStr gate := by
  cases h <;> rfl

/-- a relation between circuits: references, gates that matter, renaming of gates -/
abbrev Pairing := Ref → Ref → (GateId → Prop) → (GateId → GateId) → Prop

structure TwinAt (w w' : World) (P : Pairing) (D : GateId → Prop) (θ : GateId → GateId) (c c' : Circuit) : Prop where
  closed : ∀ g gate, D g → c.gateMap g = some gate → ∀ x ∈ gate.operands, D x
  inj : ∀ g h, D g → D h → θ g = θ h → g = h
  gates : ∀ g gate, D g → c.gateMap g = some gate → ∃ gate', c'.gateMap (θ g) = some gate' ∧ TwinGate θ gate gate'
  inputs : ∀ k g, c.inputMap k = some g → D g ∧ c'.inputMap k = some (θ g)
  outputs : ∀ k g, c.outputMap k = some g → D g ∧ c'.outputMap k = some (θ g)
  outputLen : c'.outputLen = c.outputLen
  consts : c'.constGates = c.constGates.map θ ∧ ∀ g ∈ c.constGates, D g
  mods : ∀ g nIn nOut ids oi mid nIn' ids' oi' mid' mr, D g → c.gateMap g = some (.module nIn nOut ids oi mid) →
    c'.gateMap (θ g) = some (.module nIn' nOut ids' oi' mid') → w.module? c mid = some mr →
    ∃ mr' D' θ', w'.module? c' mid' = some mr' ∧ P mr mr' D' θ' ∧
      (oi ≤ g → oi ≤ θ g ∧ ∀ i < nOut, D (g - oi + i) ∧ θ (g - oi + i) = θ g - oi + i)

def Twins (w w' : World) (P : Pairing) : Prop :=
  ∀ r r' D θ, P r r' D θ → ∀ c, w.circs[r]? = some c → ∃ c', w'.circs[r']? = some c' ∧ TwinAt w w' P D θ c c'

/-- the parameters of a comparison -/
structure Par where
  lo : Nat
  nc : Nat
  n0 : Nat
  pre : List Char
  pre' : List Char

def Par.σ (p : Par) : Nat → Nat := shiftWire p.lo p.nc p.n0

structure Rel (p : Par) (D : GateId → Prop) (θ : GateId → GateId) (s s' : WS) : Prop where
  wire : s'.1.numWire = s.1.numWire + p.n0
  big : p.n0 = 0 ∨ p.lo + p.nc ≤ s.1.numWire
  last : s'.1.lastConstWire = s.1.lastConstWire
  low : p.lo ≤ s.1.lastConstWire
  constOf : s'.1.constOf = s.1.constOf
  text : ∃ ls, s.1.out = p.pre ++ gatesText ls ∧ s'.1.out = p.pre' ++ gatesText (ls.map (relabel p.σ))
  wog : ∀ g, D g → s'.2 (θ g) = (s.2 g).map p.σ

/-- the constants fit -/
def Par.Fits (p : Par) (s : WS) : Prop := p.n0 = 0 ∨ s.1.lastConstWire ≤ p.lo + p.nc

theorem Par.Fits.mono {p : Par} {s s1 : WS} (h : p.Fits s1) (hl : s.1.lastConstWire ≤ s1.1.lastConstWire) : p.Fits s := by
  rcases h with h | h
  · exact .inl h
  · exact .inr (by omega)

/-- the two steps go together -/
def Good (p : Par) (D : GateId → Prop) (θ : GateId → GateId) (f f' : WS → Except Err WS) : Prop :=
  ∀ s s1, f s = .ok s1 → s.1.lastConstWire ≤ s1.1.lastConstWire ∧
    (p.Fits s1 → ∀ s', Rel p D θ s s' → ∃ s1', f' s' = .ok s1' ∧ Rel p D θ s1 s1')

theorem Good.ok (p : Par) (D θ) : Good p D θ .ok .ok := by
  intro s s1 h
  cases h
  exact ⟨Nat.le_refl _, fun _ s' h => ⟨s', rfl, h⟩⟩

theorem Good.bind {p : Par} {D θ} {f f' k k' : WS → Except Err WS} (h1 : Good p D θ f f') (h2 : Good p D θ k k') :
    Good p D θ (fun s => f s >>= k) (fun s => f' s >>= k') := by
  intro s s2 h
  obtain ⟨s1, e1, e2⟩ := ok_bind h
  obtain ⟨a1, b1⟩ := h1 s s1 e1
  obtain ⟨a2, b2⟩ := h2 s1 s2 e2
  refine ⟨by omega, fun hfit s' hr => ?_⟩
  obtain ⟨s1', e1', r1⟩ := b1 (hfit.mono a2) s' hr
  obtain ⟨s2', e2', r2⟩ := b2 hfit s1' r1
  exact ⟨s2', by simp only [bind_of_ok e1', e2'], r2⟩

section steps
variable {w w' : World} {P : Pairing} {p : Par} {D : GateId → Prop} {θ : GateId → GateId} {c c' : Circuit}

theorem insert_wog {wog wog' : Map GateId Nat} {g x : Nat} (ht : TwinAt w w' P D θ c c') (hg : D g)
    (h : ∀ g, D g → wog' (θ g) = (wog g).map p.σ) :
    ∀ h, D h → (wog'.insert (θ g) (p.σ x)) (θ h) = ((wog.insert g x) h).map p.σ := by
  intro h' hD
  by_cases e : h' = g
  · subst e; simp
  · rw [Map.insert_ne _ _ e, Map.insert_ne _ _ (fun e' => e (ht.inj h' g hD hg e')), h h' hD]

theorem σ_wire {s s' : WS} (h : Rel p D θ s s') : p.σ s.1.numWire = s'.1.numWire := by
  rw [h.wire]
  unfold Par.σ shiftWire
  rcases h.big with e | e
  · rw [e]; simp
  · rw [if_neg (by omega)]

theorem updateWire_none (ht : TwinAt w w' P D θ c c') {g : GateId} (hg : D g) (str str' : List Char) :
    Good p D θ (fun s => .ok (updateWire g none str s)) (fun s => .ok (updateWire (θ g) none str' s)) := by
  intro s s1 h
  cases h
  refine ⟨Nat.le_refl _, fun _ s' hr => ⟨_, rfl, ?_⟩⟩
  exact {
    wire := by have := hr.wire; simp only [updateWire]; omega
    big := by have := hr.big; simp only [updateWire]; omega
    last := hr.last
    low := hr.low
    constOf := hr.constOf
    text := hr.text
    wog := by
      simp only [updateWire]
      rw [← σ_wire hr]
      exact insert_wog ht hg hr.wog }

theorem wiresOf_twin {wog wog' : Map GateId Nat} (h : ∀ g, D g → wog' (θ g) = (wog g).map p.σ) :
    ∀ {ids : List GateId} {ws : List Nat}, (∀ x ∈ ids, D x) → wiresOf wog ids = .ok ws →
    wiresOf wog' (ids.map θ) = .ok (ws.map p.σ)
  | [], ws, _, e => by cases e; rfl
  | id :: ids, ws, hD, e => by
    unfold wiresOf at e
    rw [List.map_cons]
    unfold wiresOf
    rw [h id (hD id (List.mem_cons_self ..))]
    cases hx : wog id with
    | none => rw [hx] at e; cases e
    | some x =>
      rw [hx] at e
      obtain ⟨xs, e1, e2⟩ := ok_bind e
      cases e2
      simp only [Option.map_some]
      rw [bind_of_ok (wiresOf_twin h (fun y hy => hD y (List.mem_cons_of_mem _ hy)) e1)]
      rfl

theorem gateLine_text (op : GOp) (ws : List Nat) (x : Nat) : gateLine ws x op.name = GLine.text ⟨op, ws, x⟩ := by
  simp [GLine.text, gateLine, dec, num]

theorem updateWire_some (ht : TwinAt w w' P D θ c c') {g : GateId} (hg : D g) (op : GOp) {ids : List GateId}
    (hD : ∀ x ∈ ids, D x) :
    Good p D θ (fun s => wiresOf s.2 ids >>= fun ws => .ok (updateWire g (some ws) op.name s))
      (fun s => wiresOf s.2 (ids.map θ) >>= fun ws => .ok (updateWire (θ g) (some ws) op.name s)) := by
  intro s s1 h
  obtain ⟨ws, e1, e2⟩ := ok_bind h
  cases e2
  refine ⟨Nat.le_refl _, fun _ s' hr => ?_⟩
  have e1' := wiresOf_twin hr.wog hD e1
  refine ⟨_, bind_of_ok e1', ?_⟩
  exact {
    wire := by have := hr.wire; simp only [updateWire]; omega
    big := by have := hr.big; simp only [updateWire]; omega
    last := hr.last
    low := hr.low
    constOf := hr.constOf
    text := by
      obtain ⟨ls, t1, t2⟩ := hr.text
      refine ⟨ls ++ [⟨op, ws, s.1.numWire⟩], ?_, ?_⟩
      · simp only [updateWire]
        rw [t1, gateLine_text, gatesText_append, List.append_assoc]
        simp [gatesText]
      · simp only [updateWire]
        rw [t2, gateLine_text, List.map_append, gatesText_append, List.append_assoc]
        simp [gatesText, relabel, σ_wire hr]
    wog := by
      simp only [updateWire]
      rw [← σ_wire hr]
      exact insert_wog ht hg hr.wog }

/-- what `write_single_gate` does on both sides -/
def GoodGate (p : Par) (D : GateId → Prop) (θ : GateId → GateId) (c c' : Circuit) (wg wg' : WriteGate) : Prop :=
  ∀ g gate gate', D g → c.gateMap g = some gate → c'.gateMap (θ g) = some gate' → TwinGate θ gate gate' →
    Good p D θ (wg g gate) (wg' (θ g) gate')

theorem ensureWire_good (ht : TwinAt w w' P D θ c c') {wg wg' : WriteGate} (hg : GoodGate p D θ c c' wg wg')
    {id : GateId} (hD : D id) : Good p D θ (ensureWire c wg id) (ensureWire c' wg' (θ id)) := by
  intro s s1 h
  unfold ensureWire at h
  cases hx : s.2 id with
  | some x =>
    rw [hx] at h
    cases h
    refine ⟨Nat.le_refl _, fun _ s' hr => ⟨s', ?_, hr⟩⟩
    unfold ensureWire
    rw [hr.wog id hD, hx]; rfl
  | none =>
    rw [hx] at h
    simp only at h
    cases hgate : c.gateMap id with
    | none => rw [hgate] at h; cases h
    | some gate =>
      rw [hgate] at h
      simp only at h
      obtain ⟨gate', h1, h2⟩ := ht.gates id gate hD hgate
      obtain ⟨a, b⟩ := hg id gate gate' hD hgate h1 h2 s s1 h
      refine ⟨a, fun hfit s' hr => ?_⟩
      obtain ⟨s1', e, r⟩ := b hfit s' hr
      refine ⟨s1', ?_, r⟩
      unfold ensureWire
      rw [hr.wog id hD, hx]
      simp only [Option.map_none]
      rw [h1]
      exact e

theorem ensureWires_good (ht : TwinAt w w' P D θ c c') {wg wg' : WriteGate} (hg : GoodGate p D θ c c' wg wg') :
    ∀ {ids : List GateId}, (∀ x ∈ ids, D x) → Good p D θ (ensureWires c wg ids) (ensureWires c' wg' (ids.map θ))
  | [], _ => Good.ok p D θ
  | id :: _, hD => Good.bind (ensureWire_good ht hg (hD id (List.mem_cons_self ..)))
      (ensureWires_good ht hg fun y hy => hD y (List.mem_cons_of_mem _ hy))

theorem writeConsts_good (ht : TwinAt w w' P D θ c c') : ∀ {gs : List GateId}, (∀ x ∈ gs, D x) →
    Good p D θ (writeConsts c gs) (writeConsts c' (gs.map θ))
  | [], _ => Good.ok p D θ
  | g :: gs, hD => by
    have hg := hD g (List.mem_cons_self ..)
    have ih := writeConsts_good ht (gs := gs) fun y hy => hD y (List.mem_cons_of_mem _ hy)
    intro s s1 h
    unfold writeConsts at h
    cases hgate : c.gateMap g with
    | none => rw [hgate] at h; cases h
    | some gate =>
      rw [hgate] at h
      obtain ⟨gate', h1, h2⟩ := ht.gates g gate hg hgate
      by_cases hv : ∃ v, gate = .const v
      · obtain ⟨v, rfl⟩ := hv
        cases h2
        simp only at h
        obtain ⟨a, b⟩ := ih _ _ h
        simp only at a
        refine ⟨by omega, fun hfit s' hr => ?_⟩
        obtain ⟨s1', e, r⟩ := b hfit ({ s'.1 with
            constOf := s'.1.constOf.insert s'.1.lastConstWire v
            lastConstWire := s'.1.lastConstWire + 1 }, s'.2.insert (θ g) s'.1.lastConstWire) {
          wire := hr.wire
          big := hr.big
          last := by simp only [hr.last]
          low := by have := hr.low; simp only; omega
          constOf := by simp only [hr.constOf, hr.last]
          text := hr.text
          wog := by
            have hσ : p.σ s.1.lastConstWire = s'.1.lastConstWire := by
              rw [hr.last]
              have := hr.low
              unfold Par.σ shiftWire
              rcases hfit with e | e
              · rw [e]; simp
              · rw [if_pos (by omega)]
            simp only
            rw [← hσ]
            exact insert_wog ht hg hr.wog }
        refine ⟨s1', ?_, r⟩
        rw [List.map_cons]
        unfold writeConsts
        rw [h1]
        exact e
      · have hk : ∀ (d : Circuit) (x : GateId) (xs : List GateId) (gt : Gate), (∀ v, gt ≠ .const v) → d.gateMap x = some gt →
            ∀ t, writeConsts d (x :: xs) t = writeConsts d xs t := by
          intro d x xs gt hne hx t
          rw [writeConsts, hx]
          cases gt <;> simp_all
        have hne : ∀ v, gate ≠ .const v := fun v e => hv ⟨v, e⟩
        have hne' : ∀ v, gate' ≠ .const v := by
          intro v e
          subst e
          cases h2
          exact hv ⟨v, rfl⟩
        have h : writeConsts c gs s = .ok s1 := by
          cases gate <;> first | exact h | exact absurd rfl (hne _)
        obtain ⟨a, b⟩ := ih _ _ h
        refine ⟨a, fun hfit s' hr => ?_⟩
        obtain ⟨s1', e, r⟩ := b hfit s' hr
        exact ⟨s1', by rw [List.map_cons, hk c' (θ g) _ gate' hne' h1]; exact e, r⟩

/-- output gates on both sides -/
def OutsTwin (D : GateId → Prop) (θ : GateId → GateId) (c c' : Circuit) (a b : GateId × Gate) : Prop :=
  D a.1 ∧ b.1 = θ a.1 ∧ c.gateMap a.1 = some a.2 ∧ c'.gateMap (θ a.1) = some b.2 ∧ TwinGate θ a.2 b.2

theorem writePass1_good (ht : TwinAt w w' P D θ c c') {wg wg' : WriteGate} (hg : GoodGate p D θ c c' wg wg') :
    ∀ (k i : Nat) (s : WS) (outs : List (GateId × Gate)) (s1 : WS), writePass1 c wg i k s = .ok (outs, s1) →
    s.1.lastConstWire ≤ s1.1.lastConstWire ∧ ∃ outs', All2 (OutsTwin D θ c c') outs outs' ∧
      (p.Fits s1 → ∀ s', Rel p D θ s s' → ∃ s1', writePass1 c' wg' i k s' = .ok (outs', s1') ∧ Rel p D θ s1 s1')
  | 0, i, s, outs, s1, h => by
    cases h
    exact ⟨Nat.le_refl _, [], trivial, fun _ s' hr => ⟨s', rfl, hr⟩⟩
  | k + 1, i, s, outs, s1, h => by
    unfold writePass1 at h
    cases ho : c.outputMap i with
    | none => rw [ho] at h; cases h
    | some g =>
      rw [ho] at h
      simp only at h
      obtain ⟨hD, ho'⟩ := ht.outputs i g ho
      cases hgate : c.gateMap g with
      | none => rw [hgate] at h; cases h
      | some gate =>
        rw [hgate] at h
        simp only at h
        obtain ⟨gate', h1, h2⟩ := ht.gates g gate hD hgate
        obtain ⟨s2, e1, h⟩ := ok_bind h
        obtain ⟨⟨rest, s3⟩, e2, h⟩ := ok_bind h
        cases h
        obtain ⟨a1, b1⟩ := ensureWires_good ht hg (ht.closed g gate hD hgate) s s2 e1
        obtain ⟨a2, rest', hrest, b2⟩ := writePass1_good ht hg k (i + 1) s2 rest s3 e2
        refine ⟨Nat.le_trans a1 a2, (θ g, gate') :: rest', ⟨⟨hD, rfl, hgate, h1, h2⟩, hrest⟩, fun hfit s' hr => ?_⟩
        obtain ⟨s2', e1', r1⟩ := b1 (hfit.mono a2) s' hr
        obtain ⟨s3', e2', r2⟩ := b2 hfit s2' r1
        refine ⟨s3', ?_, r2⟩
        unfold writePass1
        rw [ho']; simp only
        rw [h1]; simp only
        rw [h2.operands, bind_of_ok e1', bind_of_ok e2']

theorem writePass2_good {wg wg' : WriteGate} (hg : GoodGate p D θ c c' wg wg') :
    ∀ {outs outs' : List (GateId × Gate)}, All2 (OutsTwin D θ c c') outs outs' →
    Good p D θ (writePass2 wg outs) (writePass2 wg' outs')
  | [], [], _ => Good.ok p D θ
  | [], _ :: _, h => h.elim
  | _ :: _, [], h => h.elim
  | (g, gate) :: outs, (g', gate') :: outs', ⟨⟨hD, e, h1, h2, h3⟩, hrest⟩ => by
    simp only at hD e h1 h2 h3
    subst e
    have ih := writePass2_good hg hrest
    intro s s1 h
    unfold writePass2 at h
    cases hx : s.2 g with
    | some x =>
      rw [hx] at h
      obtain ⟨a, b⟩ := ih _ _ h
      refine ⟨a, fun hfit s' hr => ?_⟩
      obtain ⟨s1', e, r⟩ := b hfit s' hr
      refine ⟨s1', ?_, r⟩
      unfold writePass2
      rw [hr.wog g hD, hx]
      exact e
    | none =>
      rw [hx] at h
      obtain ⟨a, b⟩ := Good.bind (hg g gate gate' hD h1 h2 h3) ih s s1 h
      refine ⟨a, fun hfit s' hr => ?_⟩
      obtain ⟨s1', e, r⟩ := b hfit s' hr
      refine ⟨s1', ?_, r⟩
      unfold writePass2
      rw [hr.wog g hD, hx]
      exact e

theorem writeAll_good (ht : TwinAt w w' P D θ c c') {wg wg' : WriteGate} (hg : GoodGate p D θ c c' wg wg') :
    Good p D θ (writeAll c wg) (writeAll c' wg') := by
  intro s s1 h
  unfold writeAll at h
  obtain ⟨s2, e1, h⟩ := ok_bind h
  obtain ⟨⟨outs, s3⟩, e2, e3⟩ := ok_bind h
  obtain ⟨a1, b1⟩ := writeConsts_good ht ht.consts.2 s s2 e1
  obtain ⟨a2, outs', ho, b2⟩ := writePass1_good ht hg _ _ s2 outs s3 e2
  obtain ⟨a3, b3⟩ := writePass2_good hg ho s3 s1 e3
  refine ⟨by omega, fun hfit s' hr => ?_⟩
  obtain ⟨s2', e1', r1⟩ := b1 ((hfit.mono a3).mono a2) s' hr
  obtain ⟨s3', e2', r2⟩ := b2 (hfit.mono a3) s2' r1
  obtain ⟨s1', e3', r3⟩ := b3 hfit s3' r2
  refine ⟨s1', ?_, r3⟩
  unfold writeAll
  rw [ht.consts.1, bind_of_ok e1', ht.outputLen, bind_of_ok e2']
  exact e3'

theorem bindArgs_good {mw mw' : World} {mc mc' : Circuit} {D' : GateId → Prop} {θ' : GateId → GateId}
    (ht : TwinAt mw mw' P D' θ' mc mc') {wog wog' : Map GateId Nat} (h : ∀ g, D g → wog' (θ g) = (wog g).map p.σ) :
    ∀ {ids : List GateId} {i : Nat} {new new' res : Map GateId Nat}, (∀ x ∈ ids, D x) →
    (∀ g, D' g → new' (θ' g) = (new g).map p.σ) → bindArgs mc wog i ids new = .ok res →
    ∃ res', bindArgs mc' wog' i (ids.map θ) new' = .ok res' ∧ ∀ g, D' g → res' (θ' g) = (res g).map p.σ
  | [], i, new, new', res, _, hn, e => by cases e; exact ⟨new', rfl, hn⟩
  | id :: ids, i, new, new', res, hD, hn, e => by
    unfold bindArgs at e
    rw [List.map_cons]
    unfold bindArgs
    cases hi : mc.inputMap i with
    | none => rw [hi] at e; cases e
    | some g =>
      rw [hi] at e
      simp only at e
      obtain ⟨hg, hi'⟩ := ht.inputs i g hi
      rw [hi']
      simp only
      rw [h id (hD id (List.mem_cons_self ..))]
      cases hx : wog id with
      | none => rw [hx] at e; cases e
      | some x =>
        rw [hx] at e
        exact bindArgs_good ht h (fun y hy => hD y (List.mem_cons_of_mem _ hy)) (insert_wog ht hg hn) e

theorem bindOuts_good {mw mw' : World} {mc mc' : Circuit} {D' : GateId → Prop} {θ' : GateId → GateId}
    (ht : TwinAt w w' P D θ c c') (hm : TwinAt mw mw' P D' θ' mc mc') {new new' : Map GateId Nat}
    (hn : ∀ g, D' g → new' (θ' g) = (new g).map p.σ) {first first' : Nat} :
    ∀ (k i : Nat) {wog wog' res : Map GateId Nat}, (∀ j, i ≤ j → j < i + k → D (first + j) ∧ θ (first + j) = first' + j) →
    (∀ g, D g → wog' (θ g) = (wog g).map p.σ) → bindOuts mc new first i k wog = .ok res →
    ∃ res', bindOuts mc' new' first' i k wog' = .ok res' ∧ ∀ g, D g → res' (θ g) = (res g).map p.σ
  | 0, i, wog, wog', res, _, h, e => by cases e; exact ⟨wog', rfl, h⟩
  | k + 1, i, wog, wog', res, hf, h, e => by
    unfold bindOuts at e ⊢
    cases ho : mc.outputMap i with
    | none => rw [ho] at e; cases e
    | some g =>
      rw [ho] at e
      simp only at e
      obtain ⟨hg, ho'⟩ := hm.outputs i g ho
      rw [ho']
      simp only
      rw [hn g hg]
      cases hx : new g with
      | none => rw [hx] at e; cases e
      | some x =>
        rw [hx] at e
        obtain ⟨f1, f2⟩ := hf i (Nat.le_refl _) (by omega)
        have := insert_wog (x := x) ht f1 h
        rw [f2] at this
        exact bindOuts_good ht hm hn k (i + 1) (fun j h1 h2 => hf j (by omega) (by omega)) this e

end steps

theorem writeGate_good {w w' : World} {P : Pairing} {p : Par} (hP : Twins w w' P) : ∀ (fuel : Nat) {r r' : Ref}
    {D : GateId → Prop} {θ : GateId → GateId} {c c' : Circuit}, P r r' D θ → w.circs[r]? = some c →
    w'.circs[r']? = some c' → TwinAt w w' P D θ c c' → GoodGate p D θ c c' (writeGate w fuel r) (writeGate w' fuel r')
  | 0, _, _, _, _, _, _, _, _, _, _ => fun _ _ _ _ _ _ _ s s1 h => by cases h
  | fuel + 1, r, r', D, θ, c, c', hp, hc, hc', ht => by
    intro g gate gate' hD hgate hgate' hg
    have ih := writeGate_good hP fuel hp hc hc' ht (p := p)
    have hw1 : ∀ s, writeGate w (fuel + 1) r g gate s = _ := fun s => by
      rw [writeGate, bind_of_ok (circuit_of hc)]
    have hw2 : ∀ s, writeGate w' (fuel + 1) r' (θ g) gate' s = _ := fun s => by
      rw [writeGate, bind_of_ok (circuit_of hc')]
    have hcl := ht.closed g gate hD hgate
    have logic : ∀ op : GOp, gateStr gate = op.name → Good p D θ
        (fun s => ensureWires c (writeGate w fuel r) gate.operands s >>= fun s =>
          wiresOf s.2 gate.operands >>= fun ws => .ok (updateWire g (some ws) (gateStr gate) s))
        (fun s => ensureWires c' (writeGate w' fuel r') gate'.operands s >>= fun s =>
          wiresOf s.2 gate'.operands >>= fun ws => .ok (updateWire (θ g) (some ws) (gateStr gate') s)) := by
      intro op hop
      rw [hg.str, hop, hg.operands]
      exact Good.bind (ensureWires_good ht ih hcl) (updateWire_some ht hD op hcl)
    intro s s1 h
    rw [hw1] at h
    simp only [hw2]
    cases hg with
    | input k k' => exact updateWire_none ht hD _ _ s s1 h
    | const v => exact Good.ok p D θ s s1 h
    | not x => exact logic .inv rfl s s1 h
    | xor x y => exact logic .xor rfl s s1 h
    | and x y => exact logic .and rfl s s1 h
    | or x y => exact logic .or rfl s s1 h
    | module nIn nIn' nOut ids oi mid mid' =>
      simp only at h ⊢
      have hcl : ∀ x ∈ ids, D x := hcl
      obtain ⟨s2, e1, h⟩ := ok_bind h
      obtain ⟨a1, b1⟩ := ensureWires_good ht ih hcl s s2 e1
      cases hm : w.module? c mid with
      | none => rw [hm] at h; cases h
      | some mr =>
        rw [hm] at h
        simp only at h
        obtain ⟨mr', D', θ', hm', hp', hout⟩ := ht.mods g _ _ _ _ _ _ _ _ _ mr hD hgate hgate' hm
        obtain ⟨mc, e2, h⟩ := ok_bind h
        obtain ⟨new, e3, h⟩ := ok_bind h
        obtain ⟨⟨st, new2⟩, e4, h⟩ := ok_bind h
        simp only at h
        split at h
        · cases h
        · next hlt =>
          obtain ⟨wog, e5, h⟩ := ok_bind h
          cases h
          have hmc := circuit_ok e2
          obtain ⟨mc', hmc', htm⟩ := hP mr mr' D' θ' hp' mc hmc
          have ihm := writeGate_good hP fuel hp' hmc hmc' htm (p := p)
          obtain ⟨a2, b2⟩ := writeAll_good htm ihm (s2.1, new) (st, new2) e4
          refine ⟨Nat.le_trans a1 a2, fun hfit s' hr => ?_⟩
          obtain ⟨s2', e1', r1⟩ := b1 (hfit.mono a2) s' hr
          obtain ⟨new', e3', hn⟩ := bindArgs_good (p := p) (D := D) (θ := θ) htm r1.wog hcl
            (new := Map.empty) (new' := Map.empty) (by intro g _; rfl) e3
          obtain ⟨⟨st', new2'⟩, e4', r2⟩ := b2 hfit (s2'.1, new') ⟨r1.wire, r1.big, r1.last, r1.low, r1.constOf, r1.text, hn⟩
          obtain ⟨h1, h2⟩ := hout (by omega)
          obtain ⟨wog', e5', hwog⟩ := bindOuts_good ht htm (first' := θ g - oi) r2.wog nOut 0
            (fun j _ hj => h2 j (by omega)) r1.wog e5
          refine ⟨(st', wog'), ?_, ⟨r2.wire, r2.big, r2.last, r2.low, r2.constOf, r2.text, hwog⟩⟩
          rw [bind_of_ok e1']
          rw [hm']
          simp only
          rw [bind_of_ok (circuit_of hmc'), bind_of_ok e3', bind_of_ok e4']
          simp only
          rw [if_neg (by omega), bind_of_ok e5']

theorem writeInputs_good {w w' : World} {P : Pairing} {n0 : Nat} {r r' : Ref} {D : GateId → Prop} {θ : GateId → GateId}
    {c c' : Circuit} (hwf : WFc c) (hc : w.circs[r]? = some c) (hc' : w'.circs[r']? = some c') (ht : TwinAt w w' P D θ c c')
    {fuel : Nat} : ∀ (k i : Nat) {s s1 s' : WS}, writeInputs w fuel r c i k s = .ok s1 →
    s'.1.numWire = s.1.numWire + n0 → (∀ g, D g → s'.2 (θ g) = (s.2 g).map (· + n0)) →
    s1.1.numWire = s.1.numWire + k ∧ s1.1.out = s.1.out ∧ s1.1.constOf = s.1.constOf ∧
      (∀ g x, s1.2 g = some x → s.2 g = some x ∨ x < s1.1.numWire) ∧
      ∃ s1', writeInputs w' fuel r' c' i k s' = .ok s1' ∧ s1'.1.numWire = s1.1.numWire + n0 ∧ s1'.1.out = s'.1.out ∧
        s1'.1.constOf = s'.1.constOf ∧ ∀ g, D g → s1'.2 (θ g) = (s1.2 g).map (· + n0)
  | 0, i, s, s1, s', h, hn, hr => by
    cases h
    exact ⟨rfl, rfl, rfl, fun g x h => .inl h, s', rfl, hn, rfl, rfl, hr⟩
  | k + 1, i, s, s1, s', h, hn, hr => by
    unfold writeInputs at h
    cases hi : c.inputMap i with
    | none => rw [hi] at h; cases h
    | some g =>
      rw [hi] at h
      simp only at h
      obtain ⟨hD, hi'⟩ := ht.inputs i g hi
      have hgate := (hwf.input_iff i g).mp hi
      rw [hgate] at h
      simp only at h
      obtain ⟨gate', hgate', ht'⟩ := ht.gates g _ hD hgate
      cases ht' with
      | input _ k' =>
        obtain ⟨s2, e1, e2⟩ := ok_bind h
        cases fuel with
        | zero => cases e1
        | succ fuel =>
          have a1 : writeGate w (fuel + 1) r g (.input i) s = .ok (updateWire g none (gateStr (.input i)) s) := by
            unfold writeGate; rw [bind_of_ok (circuit_of hc)]
          have a2 : writeGate w' (fuel + 1) r' (θ g) (.input k') s' = .ok (updateWire (θ g) none (gateStr (.input k')) s') := by
            unfold writeGate; rw [bind_of_ok (circuit_of hc')]
          rw [a1] at e1
          cases e1
          obtain ⟨b1, b2, b3, b4, s1', b5, b6, b7, b8, b9⟩ := writeInputs_good (n0 := n0)
            (s' := updateWire (θ g) none (gateStr (.input k')) s') hwf hc hc' ht k (i + 1) e2
            (by simp only [updateWire]; omega) (by
              intro h' hD'
              simp only [updateWire, Map.insert_apply]
              by_cases e : h' = g
              · subst e; simp [hn]
              · rw [if_neg e, if_neg (fun e' => e (ht.inj h' g hD' hD e')), hr h' hD'])
          refine ⟨by rw [b1]; simp only [updateWire]; omega, b2, b3, ?_, s1', ?_, b6, b7, b8, b9⟩
          · intro y x hx
            rcases b4 y x hx with h | h
            · simp only [updateWire, Map.insert_apply] at h
              split at h
              · cases h
                right
                rw [b1]; simp only [updateWire]; omega
              · exact .inl h
            · exact .inr h
          · unfold writeInputs
            rw [hi']; simp only
            rw [hgate']; simp only
            rw [bind_of_ok a2]
            exact b5

theorem constVals_len {m : Map Nat Bool} : ∀ {xs : List Nat} {bs : List Bool}, constVals m xs = .ok bs → bs.length = xs.length
  | [], bs, h => by cases h; rfl
  | x :: xs, bs, h => by
    unfold constVals at h
    cases hx : m x with
    | none => rw [hx] at h; cases h
    | some b =>
      rw [hx] at h
      obtain ⟨bs, e1, e2⟩ := ok_bind h
      cases e2
      rw [List.length_cons, List.length_cons, constVals_len e1]

/-- the numbers in the header -/
structure SameHeader (c c' : Circuit) : Prop where
  inputLen : c'.inputLen = c.inputLen
  outputLen : c'.outputLen = c.outputLen
  numConst : c'.numConst = c.numConst
  numGate : c'.numGate = c.numGate
  numWire : c'.numWire = c.numWire

theorem SameHeader.header {c c' : Circuit} (h : SameHeader c c') (k : Nat) : header c' k = header c k := by
  unfold Bristol.header
  rw [h.inputLen, h.outputLen, h.numConst, h.numGate, h.numWire]

theorem write_twin {w w' : World} {P : Pairing} (hP : Twins w w' P) {r r' : Ref} {D : GateId → Prop} {θ : GateId → GateId}
    (hp : P r r' D θ) {c c' : Circuit} (hc : w.circs[r]? = some c) (hc' : w'.circs[r']? = some c') (hwf : WFc c)
    (hh : SameHeader c c') {fuel k : Nat} {st st' : WSt} (hst : st.numWire = 0) {res : Written}
    (h : write w fuel r k st Map.empty = .ok res) (hfit : st'.numWire = 0 ∨ res.consts.length ≤ c.numConst) :
    ∃ res' ls, write w' fuel r' k st' Map.empty = .ok res' ∧ res'.consts = res.consts ∧
      res.st.out = st.out ++ header c k ++ gatesText ls ∧
      res'.st.out = st'.out ++ header c k ++
        gatesText (ls.map (relabel (shiftWire c.inputLen c.numConst st'.numWire))) ∧
      res'.st.numWire = res.st.numWire + st'.numWire ∧
      (∀ g, D g → res'.wog (θ g) = (res.wog g).map (shiftWire c.inputLen c.numConst st'.numWire)) := by
  obtain ⟨c'', hc'', ht⟩ := hP r r' D θ hp c hc
  rw [hc'] at hc''
  cases hc''
  unfold write at h
  rw [bind_of_ok (circuit_of hc)] at h
  simp only at h
  split at h
  · cases h
  · next hk =>
    obtain ⟨s1, e1, h⟩ := ok_bind h
    obtain ⟨s2, e2, h⟩ := ok_bind h
    obtain ⟨cs, e3, h⟩ := ok_bind h
    cases h
    simp only at hfit ⊢
    let p : Par := ⟨c.inputLen, c.numConst, st'.numWire, st.out ++ header c k, st'.out ++ header c k⟩
    obtain ⟨b1, b2, b3, b4, s1', b5, b6, b7, b8, b9⟩ := writeInputs_good (n0 := st'.numWire)
      (s' := ({ st' with out := st'.out ++ header c k, constOf := Map.empty }, Map.empty)) hwf hc hc' ht _ _ e1
      (by simp only; omega) (fun _ _ => rfl)
    simp only [hst, Nat.zero_add] at b1 b2 b3 b7 b8
    have hσ : ∀ x, x < c.inputLen → p.σ x = x + st'.numWire := by
      intro x hx
      show shiftWire _ _ _ _ = _
      unfold shiftWire
      rw [if_neg (by simp only [p]; omega)]
    obtain ⟨a2, b10⟩ := writeAll_good (p := p) ht (writeGate_good hP fuel hp hc hc' ht) _ _ e2
    simp only at a2
    have hlen := constVals_len e3
    have hfit' : p.Fits s2 := by
      rcases hfit with h | h
      · exact .inl h
      · right
        simp only [p]
        simp only [rangeFromTo, List.length_map, List.length_range] at hlen
        omega
    obtain ⟨s2', e2', r2⟩ := b10 hfit' ({ s1'.1 with lastConstWire := c.inputLen, numWire := s1'.1.numWire + c.numConst }, s1'.2) {
      wire := by simp only [b6, p]; omega
      big := by simp only [b1, p]; omega
      last := rfl
      low := by simp only [p]; omega
      constOf := by simp only [b3, b8]
      text := ⟨[], by simp [gatesText, p, b2], by simp [gatesText, p, b7]⟩
      wog := by
        intro g hD
        simp only
        rw [b9 g hD]
        cases hg : s1.2 g with
        | none => rfl
        | some x =>
          rcases b4 g x hg with h | h
          · cases h
          · rw [Option.map_some, Option.map_some, hσ x (by omega)] }
    obtain ⟨ls, t1, t2⟩ := r2.text
    refine ⟨⟨cs, s2'.1, s2'.2⟩, ls, ?_, rfl, t1, t2, r2.wire, r2.wog⟩
    unfold write
    rw [bind_of_ok (circuit_of hc')]
    simp only
    rw [if_neg (by rw [hh.inputLen, hh.numConst]; exact hk), hh.header, hh.inputLen, bind_of_ok b5]
    simp only [hh.numConst]
    rw [bind_of_ok e2', r2.constOf, r2.last, bind_of_ok e3]

end CC.Bristol
