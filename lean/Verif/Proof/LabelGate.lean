import Verif.Proof.Label
/-
The labelled record layer under an arbitrary sequence of transport and
application calls: harness and invariant.
-/
namespace Verif
open Spec

/-- One call on the record layer. -/
inductive LOp where
  | recv (chunk : Bytes)
  | read
  | write (bs : Bytes)
  | transmit
  deriving DecidableEq, Repr

/-- A record layer together with the bytes that crossed each of its edges so far. -/
structure LRun where
  s : Labeled
  failed : Bool := false
  delivered : Bytes := []
  written : Bytes := []
  sent : Bytes := []
  deriving DecidableEq, Repr

/-- One call. After a rejection the exchange is torn down, so nothing happens any more; the
application writes only once the acceptor is no longer validating (streams/bridge.rs gates the
exchange on `is_handshaking`). -/
def LRun.step (r : LRun) (op : LOp) : LRun :=
  if r.failed then r
  else
    match op with
    | .recv c =>
      let (s, f) := r.s.recv c
      { r with s := s, failed := f }
    | .read =>
      let (s, out) := r.s.read
      { r with s := s, delivered := r.delivered ++ out }
    | .write bs =>
      if r.s.gate.isValidating then r
      else { r with s := r.s.write bs, written := r.written ++ bs }
    | .transmit =>
      let (s, out) := r.s.transmit
      { r with s := s, sent := r.sent ++ out }

def LRun.run (r : LRun) (ops : List LOp) : LRun := ops.foldl LRun.step r

/-- All bytes the transport delivered, in order. -/
def LOp.received : List LOp → Bytes
  | [] => []
  | .recv c :: ops => c ++ LOp.received ops
  | _ :: ops => LOp.received ops

/-- Invariant relating the state to everything received so far (`all`). -/
structure LInv (label : Option Bytes) (skip : Bool) (role : GateRole) (all : Bytes) (r : LRun) :
    Prop where
  hlabel : r.s.gate.label = label
  hskip : r.s.gate.skip = skip
  hrole : r.s.gate.role = role
  fail : r.failed = true → r.delivered = [] ∧ r.s.gate.validated = false ∧
    ∃ l, label = some l ∧ ∃ e, classifyHeader all label skip = .rejected e
  pend : r.failed = false → r.s.gate.validated = false →
    r.s.inbound = [] ∧ r.s.postLabelTail = [] ∧ r.delivered = [] ∧
      (∀ l, label = some l → r.s.gate.inboundRaw = all ∧
        classifyHeader all label skip = .incomplete) ∧ (label = none → all = [])
  ok : r.failed = false → r.s.gate.validated = true →
    match label with
    | none => r.delivered ++ r.s.postLabelTail ++ r.s.inbound = all
    | some _ => ∃ n, classifyHeader all label skip = .accepted n ∧
        r.delivered ++ r.s.postLabelTail ++ r.s.inbound = all.drop n
  gq : r.s.gate.outboundPrefix = []
  out : ∀ l, label = some l →
      r.sent ++ r.s.outbound =
        (if role = .dialer ∨ r.s.gate.validated = true then labelHeader l else []) ++ r.written
  outn : label = none → r.sent ++ r.s.outbound = r.written
  emitted : ∀ l, label = some l →
    (r.s.prefixEmitted = true ↔ role = .dialer ∨ r.s.gate.validated = true) ∧
    (r.s.gate.prefixQueued = true ↔ role = .dialer ∨ r.s.gate.validated = true)
  emittedn : label = none → r.s.prefixEmitted = false
  nowrite : ∀ l, label = some l → role = .acceptor → r.s.gate.validated = false → r.written = []

theorem LInv.initDialer (label : Option Bytes) (skip : Bool) :
    LInv (effectiveLabel label) skip .dialer [] { s := Labeled.newDialer label skip } := by
  cases h : effectiveLabel label with
  | none =>
    constructor <;>
      simp [Labeled.newDialer, Labeled.flushLabel, LabelGate.newDialer, LabelGate.queuePrefix,
        LabelGate.newAcceptor, LabelGate.takePrefix, h]
  | some l =>
    constructor <;>
      simp [Labeled.newDialer, Labeled.flushLabel, LabelGate.newDialer, LabelGate.queuePrefix,
        LabelGate.newAcceptor, LabelGate.takePrefix, h, encodeLabelPrefix, labelHeader,
        classifyHeader, LABELED_TAG]

theorem LInv.initAcceptor (label : Option Bytes) (skip : Bool) :
    LInv (effectiveLabel label) skip .acceptor [] { s := Labeled.newAcceptor label skip } := by
  cases h : effectiveLabel label with
  | none =>
    constructor <;> simp [Labeled.newAcceptor, LabelGate.newAcceptor, h]
  | some l =>
    constructor <;>
      simp [Labeled.newAcceptor, LabelGate.newAcceptor, h, classifyHeader]

theorem classify_mono {label : Option Bytes} {skip : Bool} {all c : Bytes} {e : LabelError}
    (h : classifyHeader all label skip = .rejected e) :
    classifyHeader (all ++ c) label skip = .rejected e := by
  rw [classify_append _ _ _ _ (by rw [h]; simp), h]

/-- Receiving preserves the invariant. -/
theorem LInv.recv {label skip role all r} (I : LInv label skip role all r) (c : Bytes) :
    LInv label skip role (all ++ c) (r.step (.recv c)) := by
  by_cases hf : r.failed = true
  · -- already failed
    have hs : r.step (.recv c) = r := by simp [LRun.step, hf]
    rw [hs]
    refine { I with fail := ?_, pend := ?_, ok := ?_ }
    · intro h
      obtain ⟨h1, h2, l, hl, e, he⟩ := I.fail h
      exact ⟨h1, h2, l, hl, e, classify_mono he⟩
    · intro h; rw [hf] at h; cases h
    · intro h; rw [hf] at h; cases h
  · have hf' : r.failed = false := by simpa using hf
    by_cases hv : r.s.gate.validated = true
    · -- passthrough
      have hs : r.step (.recv c) = { r with s := { r.s with inbound := r.s.inbound ++ c } } := by
        simp [LRun.step, hf', Labeled.recv, hv]
      rw [hs]
      refine { hlabel := I.hlabel, hskip := I.hskip, hrole := I.hrole, fail := ?_, pend := ?_, ok := ?_,
               gq := I.gq, out := I.out, outn := I.outn, emitted := I.emitted, emittedn := I.emittedn,
               nowrite := I.nowrite }
      · intro h; simp [hf'] at h
      · intro _ h; simp [hv] at h
      · intro _ _
        have := I.ok hf' hv
        cases label with
        | none => simp only at this ⊢; rw [← this]; simp
        | some l =>
          simp only at this ⊢
          obtain ⟨n, hn, hd⟩ := this
          refine ⟨n, by rw [classify_append _ _ _ _ (by rw [hn]; simp), hn], ?_⟩
          rw [List.drop_append_of_le_length (classify_accepted_le _ _ _ _ hn), ← hd]
          simp
    · have hv' : r.s.gate.validated = false := by simpa using hv
      obtain ⟨hin, htail, hdel, hlab, hnone⟩ := I.pend hf' hv'
      by_cases hc : c = []
      · subst hc
        have hs : r.step (.recv []) = r := by
          simp only [LRun.step, hf', Labeled.recv, hv', Labeled.consumeLabel, hin]
          cases r with | mk s f d w se => cases s; simp_all
        rw [hs]; simpa using I
      · have hce : c.isEmpty = false := by simpa using hc
        cases label with
        | none =>
          have hall := hnone rfl
          have hgl := I.hlabel
          have hs : r.step (.recv c) =
              { r with s := ({ r.s with inbound := [], gate := ({ r.s.gate with validated := true }).queuePrefix, postLabelTail := r.s.postLabelTail ++ c } : Labeled).flushLabel, failed := false } := by
            simp [LRun.step, hf', Labeled.recv, hv', Labeled.consumeLabel, hin, hc,
              LabelGate.consumeInbound, hgl]
          have hq : ({ r.s.gate with validated := true }).queuePrefix.outboundPrefix = [] := by
            simp only [LabelGate.queuePrefix]
            split
            · exact I.gq
            · simp [hgl, I.gq]
          have hs2 : r.step (.recv c) =
              { r with s := { r.s with inbound := [], gate := { ({ r.s.gate with validated := true }).queuePrefix with outboundPrefix := [] }, postLabelTail := r.s.postLabelTail ++ c }, failed := false } := by
            rw [hs]
            simp only [Labeled.flushLabel, I.emittedn rfl, LabelGate.takePrefix, hq]
            simp
          rw [hs2]
          have g1 : ∀ g : LabelGate, g.queuePrefix.label = g.label := by
            intro g; simp only [LabelGate.queuePrefix]; split <;> rfl
          have g2 : ∀ g : LabelGate, g.queuePrefix.skip = g.skip := by
            intro g; simp only [LabelGate.queuePrefix]; split <;> rfl
          have g3 : ∀ g : LabelGate, g.queuePrefix.role = g.role := by
            intro g; simp only [LabelGate.queuePrefix]; split <;> rfl
          have g4 : ∀ g : LabelGate, g.queuePrefix.validated = g.validated := by
            intro g; simp only [LabelGate.queuePrefix]; split <;> rfl
          exact {
            hlabel := (g1 _).trans hgl
            hskip := (g2 _).trans I.hskip
            hrole := (g3 _).trans I.hrole
            fail := by simp
            pend := by
              intro _ h
              have h' := (g4 { r.s.gate with validated := true }).symm.trans h
              simp at h'
            ok := by simp [hdel, htail, hall]
            gq := rfl
            out := by intro l hl; cases hl
            outn := fun _ => I.outn rfl
            emitted := by intro l hl; cases hl
            emittedn := fun _ => I.emittedn rfl
            nowrite := by intro l hl; cases hl }
        | some l =>
          obtain ⟨hraw, hinc⟩ := hlab l rfl
          have hgl := I.hlabel
          have hem := I.emitted l rfl
          cases hcl : classifyHeader (all ++ c) (some l) skip with
          | incomplete =>
            have hs : r.step (.recv c) =
                { r with s := { r.s with inbound := [], gate := { r.s.gate with inboundRaw := all ++ c } }, failed := false } := by
              simp [LRun.step, hf', Labeled.recv, hv', Labeled.consumeLabel, hin, hc,
                LabelGate.consumeInbound, hgl, hraw, I.hskip, hcl]
            rw [hs]
            refine LInv.mk ?_ ?_ ?_ ?_ ?_ ?_ ?_ ?_ ?_ ?_ ?_ ?_
            · simp [hgl]
            · simp [I.hskip]
            · simp [I.hrole]
            · simp
            · intro _ _
              simp [htail, hdel, hcl]
            · intro _ h; simp [hv'] at h
            · simp [I.gq]
            · intro l' hl'; simpa using I.out l' hl'
            · intro h; cases h
            · intro l' hl'; simpa using I.emitted l' hl'
            · intro h; cases h
            · intro l' hl' h1 h2; exact I.nowrite l' hl' h1 hv'
          | rejected e =>
            have hs : r.step (.recv c) =
                { r with s := { r.s with inbound := [], gate := { r.s.gate with inboundRaw := all ++ c } }, failed := true } := by
              simp [LRun.step, hf', Labeled.recv, hv', Labeled.consumeLabel, hin, hc,
                LabelGate.consumeInbound, hgl, hraw, I.hskip, hcl]
            rw [hs]
            refine LInv.mk ?_ ?_ ?_ ?_ ?_ ?_ ?_ ?_ ?_ ?_ ?_ ?_
            · simp [hgl]
            · simp [I.hskip]
            · simp [I.hrole]
            · intro _; exact ⟨hdel, hv', l, rfl, e, hcl⟩
            · simp
            · simp
            · simp [I.gq]
            · intro l' hl'; simpa using I.out l' hl'
            · intro h; cases h
            · intro l' hl'; simpa using I.emitted l' hl'
            · intro h; cases h
            · intro l' hl' h1 h2; exact I.nowrite l' hl' h1 hv'
          | accepted n =>
            have hle := classify_accepted_le _ _ _ _ hcl
            cases role with
            | dialer =>
              have hpq : r.s.gate.prefixQueued = true := by simpa using hem.2
              have hpe : r.s.prefixEmitted = true := by simpa using hem.1
              have hs : r.step (.recv c) =
                  { r with s := { r.s with inbound := [], gate := { r.s.gate with inboundRaw := [], validated := true }, postLabelTail := (all ++ c).drop n }, failed := false } := by
                simp [LRun.step, hf', Labeled.recv, hv', Labeled.consumeLabel, hin, hc,
                  LabelGate.consumeInbound, hgl, hraw, I.hskip, hcl, LabelGate.queuePrefix, hpq,
                  Labeled.flushLabel, hpe, htail]
              rw [hs]
              refine LInv.mk ?_ ?_ ?_ ?_ ?_ ?_ ?_ ?_ ?_ ?_ ?_ ?_
              · simp [hgl]
              · simp [I.hskip]
              · simp [I.hrole]
              · simp
              · simp
              · intro _ _
                exact ⟨n, hcl, by simp [hdel]⟩
              · simp [I.gq]
              · intro l' hl'
                have := I.out l' hl'
                simpa using this
              · intro h; cases h
              · intro l' hl'; simp [hpe, hpq]
              · intro h; cases h
              · intro l' hl' h1; cases h1
            | acceptor =>
              have hpq : r.s.gate.prefixQueued = false := by
                have := hem.2; simp [hv'] at this; simpa using this
              have hpe : r.s.prefixEmitted = false := by
                have := hem.1; simp [hv'] at this; simpa using this
              have hs : r.step (.recv c) =
                  { r with s := { r.s with inbound := [], gate := { r.s.gate with inboundRaw := [], validated := true, prefixQueued := true, outboundPrefix := [] }, postLabelTail := (all ++ c).drop n, outbound := r.s.outbound ++ labelHeader l, prefixEmitted := true }, failed := false } := by
                simp [LRun.step, hf', Labeled.recv, hv', Labeled.consumeLabel, hin, hc,
                  LabelGate.consumeInbound, hgl, hraw, I.hskip, hcl, LabelGate.queuePrefix, hpq,
                  Labeled.flushLabel, hpe, htail, LabelGate.takePrefix, I.gq, encodeLabelPrefix_eq]
                simp [labelHeader]
              rw [hs]
              have hw := I.nowrite l rfl rfl hv'
              refine LInv.mk ?_ ?_ ?_ ?_ ?_ ?_ ?_ ?_ ?_ ?_ ?_ ?_
              · simp [hgl]
              · simp [I.hskip]
              · simp [I.hrole]
              · simp
              · simp
              · intro _ _
                exact ⟨n, hcl, by simp [hdel]⟩
              · simp
              · intro l' hl'
                have := I.out l' hl'
                injection hl' with hl'
                subst hl'
                simp only [hv', hw] at this ⊢
                simp at this ⊢
                rw [← List.append_assoc]
                simp [this]
              · intro h; cases h
              · intro l' hl'; simp
              · intro h; cases h
              · intro l' hl' h1; simp

theorem LInv.nonrecv {label skip role all r} (I : LInv label skip role all r) (op : LOp)
    (hop : ∀ c, op ≠ .recv c) : LInv label skip role all (r.step op) := by
  by_cases hf : r.failed = true
  · have hs : r.step op = r := by simp [LRun.step, hf]
    rw [hs]; exact I
  · have hf' : r.failed = false := by simpa using hf
    cases op with
    | recv c => exact absurd rfl (hop c)
    | read =>
      have hs : r.step .read = { r with s := { r.s with postLabelTail := [], inbound := [] }, delivered := r.delivered ++ (r.s.postLabelTail ++ r.s.inbound) } := by
        simp [LRun.step, hf', Labeled.read]
      rw [hs]
      refine { hlabel := I.hlabel, hskip := I.hskip, hrole := I.hrole, fail := (fun h => by rw [hf'] at h; cases h), pend := ?_, ok := ?_,
               gq := I.gq, out := I.out, outn := I.outn, emitted := I.emitted, emittedn := I.emittedn,
               nowrite := I.nowrite }
      · intro h1 h2
        obtain ⟨a, b, c, d⟩ := I.pend h1 h2
        refine ⟨rfl, rfl, by simp [a, b, c], d⟩
      · intro h1 h2
        have := I.ok h1 h2
        cases label <;> simpa using this
    | write bs =>
      by_cases hv : r.s.gate.isValidating = true
      · have hs : r.step (.write bs) = r := by simp [LRun.step, hf', hv]
        rw [hs]; exact I
      · have hs : r.step (.write bs) = { r with s := { r.s with outbound := r.s.outbound ++ bs }, written := r.written ++ bs } := by
          simp [LRun.step, hf', Labeled.write, hv]
        rw [hs]
        refine { hlabel := I.hlabel, hskip := I.hskip, hrole := I.hrole, fail := I.fail, pend := I.pend, ok := (by intro h1 h2; have := I.ok h1 h2; cases label <;> simpa using this),
                 gq := I.gq, out := ?_, outn := ?_, emitted := I.emitted, emittedn := I.emittedn,
                 nowrite := ?_ }
        · intro l hl
          have := I.out l hl
          simp only at this ⊢
          rw [← List.append_assoc, this, List.append_assoc]
        · intro h
          have := I.outn h
          simp only at this ⊢
          rw [← List.append_assoc, this]
        · intro l hl hr hval
          simp only [LabelGate.isValidating, I.hlabel, hl, I.hrole, hr] at hv
          simp only at hval
          simp [hval] at hv
    | transmit =>
      have hs : r.step .transmit = { r with s := { r.s with outbound := [] }, sent := r.sent ++ r.s.outbound } := by
        simp [LRun.step, hf', Labeled.transmit]
      rw [hs]
      refine { hlabel := I.hlabel, hskip := I.hskip, hrole := I.hrole, fail := I.fail, pend := I.pend, ok := (by intro h1 h2; have := I.ok h1 h2; cases label <;> simpa using this),
               gq := I.gq, out := ?_, outn := ?_, emitted := I.emitted, emittedn := I.emittedn,
               nowrite := I.nowrite }
      · intro l hl; simpa using I.out l hl
      · intro hl; simpa using I.outn hl

theorem LInv.run {label skip role all r} (I : LInv label skip role all r) (ops : List LOp) :
    LInv label skip role (all ++ LOp.received ops) (r.run ops) := by
  induction ops generalizing all r with
  | nil => simpa [LOp.received, LRun.run] using I
  | cons op ops ih =>
    cases op with
    | recv c =>
      have := ih (I.recv c)
      simpa [LOp.received, LRun.run] using this
    | read => exact ih (I.nonrecv .read (by simp))
    | write bs => exact ih (I.nonrecv (.write bs) (by simp))
    | transmit => exact ih (I.nonrecv .transmit (by simp))

end Verif
