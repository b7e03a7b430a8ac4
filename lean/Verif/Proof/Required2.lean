import Verif.Proof.Required
namespace Verif
open Spec

theorem require_ok {T : Type} {f : Option T} {s : String} {v : T} :
    require f s = .ok v ↔ f = some v := by
  cases f <;> simp [require]

theorem dataFromBytes_ok {T : Type} {C : DataCodec T} {b : Bytes} {v : T} :
    dataFromBytes C b = .ok v ↔ C.decode b = some (b.length, v) := by
  unfold dataFromBytes
  cases h : C.decode b with
  | none => simp
  | some p =>
    obtain ⟨n, w⟩ := p
    by_cases hn : n = b.length <;> simp [hn]

theorem dataIs_of {T : Type} {C : DataCodec T} {fs : List Field} {n : Nat} {f : Option Bytes} {b : Bytes}
    {v : T} (hf : f = lastBytes fs n) (h1 : f = some b) (h2 : dataFromBytes C b = .ok v) :
    DataIs C fs n v := ⟨b, by rw [← hf, h1], dataFromBytes_ok.1 h2⟩

theorem u32Is_of {fs : List Field} {n : Nat} {f : Option Nat} {v : Nat}
    (hf : f = (lastVarint fs n).map asU32) (h1 : f = some v) : U32Is fs n v := by
  rw [hf] at h1
  obtain ⟨w, hw, rfl⟩ := Option.map_eq_some_iff.1 h1
  exact ⟨w, hw, rfl⟩

theorem versionIs_of {fs : List Field} {n : Nat} {f : Option Nat} {v : Version}
    (hf : f = (lastVarint fs n).map asU32) (h1 : versioned f = .ok v) : VersionIs fs n v := by
  subst hf
  unfold versioned at h1
  cases hl : lastVarint fs n with
  | none =>
    simp only [hl, Option.map_none, Except.ok.injEq] at h1
    exact .inl ⟨hl, h1.symm⟩
  | some w =>
    right
    simp only [hl, Option.map_some, asU32] at h1
    by_cases hle : w % 2 ^ 32 ≤ 255
    · rw [if_pos hle, Except.ok.injEq] at h1
      refine ⟨w, hl, hle, ?_⟩
      have hb : (UInt8.ofNat (w % 2 ^ 32)).toNat = w % 2 ^ 32 := by
        rw [UInt8.toNat_ofNat']; omega
      rw [← h1, Version.ofByte, hb]
      split
      · rename_i h; rw [if_pos h]
      · rename_i h; rw [if_neg h]
    · rw [if_neg hle] at h1; simp at h1

theorem stateIs_of {fs : List Field} {n : Nat} {f : Option Int} {r : Int} {s : NState}
    (hf : f = (lastVarint fs n).map asI32) (h1 : f = some r) (h2 : stateFromPb r = .ok s) :
    StateIs fs n s := by
  rw [hf] at h1
  obtain ⟨w, hw, rfl⟩ := Option.map_eq_some_iff.1 h1
  unfold stateFromPb at h2
  split at h2
  · rename_i hr
    injection h2 with h2
    have hm : w % 2 ^ 32 < 2 ^ 32 := Nat.mod_lt _ (by decide)
    have hv : asI32 w = ((w % 2 ^ 32 : Nat) : Int) := by
      unfold asI32 at hr ⊢
      split
      · rfl
      · rename_i hge; rw [if_neg hge] at hr; omega
    rw [hv] at hr h2
    have hle : w % 2 ^ 32 ≤ 255 := by omega
    refine ⟨w, hw, hle, ?_⟩
    have hb : (UInt8.ofNat (w % 2 ^ 32)).toNat = w % 2 ^ 32 := by
      rw [UInt8.toNat_ofNat']; omega
    rw [← h2, Int.toNat_natCast, NState.ofByte, hb]
    generalize w % 2 ^ 32 = k
    split <;> first | rfl | simp_all
  · simp at h2

theorem metaIs_of {fs : List Field} {n : Nat} {f m : Bytes} (hf : f = (lastBytes fs n).getD [])
    (h : metaFromWire f = .ok m) : MetaIs fs n m := by
  unfold metaFromWire META_MAX_SIZE at h
  split at h
  · simp at h
  · injection h with h; subst h; exact ⟨hf, by omega⟩

section
variable {I A : Type} {CI : DataCodec I} {CA : DataCodec A}

theorem nodeIs_of {fs : List Field} {n : Nat} {f : Option PbNode} {p : PbNode} {x : TNode I A}
    (hi : f.bind (·.id) = lastBytes (subFields fs n) 1)
    (ha : f.bind (·.addr) = lastBytes (subFields fs n) 2) (h1 : f = some p)
    (h2 : nodeFromPb CI CA p = .ok x) : NodeIs CI CA fs n x := by
  subst h1
  simp only [nodeFromPb, except_bind_ok, require_ok] at h2
  obtain ⟨b, hb, i, hi', b', hb', a, ha', hx⟩ := h2
  injection hx with hx
  subst hx
  exact ⟨dataIs_of hi hb hi', dataIs_of ha hb' ha'⟩

theorem pushStateIs_of {b : Bytes} {p : PbPushNodeState} {x : PushNodeState I A}
    (h : PbPushNodeState.decode b = some p) (h2 : pushNodeStateFromPb CI CA p = .ok x) :
    ∃ gs, pbFields b = some gs ∧ PushStateIs CI CA gs x := by
  unfold PbPushNodeState.decode at h
  cases hp : pbFields b with
  | none => simp [hp] at h
  | some gs =>
    simp only [hp] at h
    obtain ⟨e1, e2, e3, e4, e5, e6, e7⟩ := pushState_decoded h
    simp only [pushNodeStateFromPb, except_bind_ok, require_ok] at h2
    obtain ⟨b1, hb1, i, hi, b2, hb2, a, ha, inc, hinc, s, hs, st, hst, mt, hmt, pv, hpv, dv, hdv, hx⟩ := h2
    injection hx with hx
    subst hx
    exact ⟨gs, rfl, dataIs_of e1 hb1 hi, dataIs_of e2 hb2 ha, metaIs_of e3 hmt, u32Is_of e4 hinc,
      stateIs_of e5 hs hst, versionIs_of e6 hpv, versionIs_of e7 hdv⟩

theorem forall₂_mapM {α β γ : Type} {R : α → β → Prop} {S : α → γ → Prop}
    {g : β → Except BridgeError γ} (hg : ∀ a b c, R a b → g b = .ok c → S a c) :
    ∀ {as : List α} {bs : List β} {cs : List γ}, List.Forall₂ R as bs → bs.mapM g = .ok cs →
      List.Forall₂ S as cs := by
  intro as bs cs h
  induction h generalizing cs with
  | nil => intro hm; simp [pure, Except.pure] at hm; subst hm; exact .nil
  | cons hab _ ih =>
    intro hm
    simp only [List.mapM_cons, except_bind_ok] at hm
    obtain ⟨y, hy, ys, hys, hr⟩ := hm
    injection hr with hr
    subst hr
    exact .cons (hg _ _ _ hab hy) (ih hys)

theorem ping_means {fs : List Field} {m : PbPing} {k : String} {p : Ping I A}
    (h : fs.foldlM PbPing.step {} = some m) (h2 : pingFromPb CI CA k m = .ok p) :
    U32Is fs 1 p.seq ∧ NodeIs CI CA fs 2 p.source ∧ NodeIs CI CA fs 3 p.target := by
  obtain ⟨e1, e2, e3, e4, e5⟩ := ping_decoded h
  simp only [pingFromPb, except_bind_ok, require_ok] at h2
  obtain ⟨s, hs, t, ht, q, hq, sn, hsn, tn, htn, hx⟩ := h2
  injection hx with hx
  subst hx
  exact ⟨u32Is_of e1 hq, nodeIs_of e2 e3 hs hsn, nodeIs_of e4 e5 ht htn⟩

theorem bad_means {fs : List Field} {m : PbBad} {k : String} {p : BadState I}
    (h : fs.foldlM PbBad.step {} = some m) (h2 : badFromPb CI k m = .ok p) :
    U32Is fs 1 p.incarnation ∧ DataIs CI fs 2 p.node ∧ DataIs CI fs 3 p.src := by
  obtain ⟨e1, e2, e3⟩ := bad_decoded h
  simp only [badFromPb, except_bind_ok, require_ok] at h2
  obtain ⟨b1, hb1, n, hn, b2, hb2, s, hs, q, hq, hx⟩ := h2
  injection hx with hx
  subst hx
  exact ⟨u32Is_of e1 hq, dataIs_of e2 hb1 hn, dataIs_of e3 hb2 hs⟩

/-- An accepted body means exactly what its fields say. -/
theorem means_of_accept {tag : MessageTag} {fs : List Field} {a : AnyMessage} {m : Message I A}
    (h1 : decodeBodyFields tag fs = some a) (h2 : messageFromAny CI CA a = .ok m) :
    MeansFields CI CA tag fs m := by
  cases tag <;> simp only [decodeBodyFields, Option.map_eq_some_iff, reduceCtorEq] at h1
  all_goals (obtain ⟨b, h1, rfl⟩ := h1)
  case ping =>
    simp only [messageFromAny, except_map_ok] at h2
    obtain ⟨p, h2, rfl⟩ := h2
    exact ping_means h1 h2
  case indirectPing =>
    simp only [messageFromAny, except_map_ok] at h2
    obtain ⟨p, h2, rfl⟩ := h2
    exact ping_means h1 h2
  case ack =>
    simp only [messageFromAny, Except.ok.injEq] at h2
    subst h2
    exact ack_decoded h1
  case nack =>
    simp only [messageFromAny, Except.ok.injEq] at h2
    subst h2
    exact nack_decoded h1
  case suspect =>
    simp only [messageFromAny, except_map_ok] at h2
    obtain ⟨p, h2, rfl⟩ := h2
    exact bad_means h1 h2
  case dead =>
    simp only [messageFromAny, except_map_ok] at h2
    obtain ⟨p, h2, rfl⟩ := h2
    exact bad_means h1 h2
  case alive =>
    simp only [messageFromAny, except_map_ok] at h2
    obtain ⟨p, h2, rfl⟩ := h2
    obtain ⟨e1, e2, e3, e4, e5, e6⟩ := alive_decoded h1
    simp only [aliveFromPb, except_bind_ok, require_ok] at h2
    obtain ⟨n, hn, nd, hnd, mt, hmt, pv, hpv, dv, hdv, q, hq, hx⟩ := h2
    injection hx with hx
    subst hx
    exact ⟨u32Is_of e1 hq, metaIs_of e2 hmt, nodeIs_of e3 e4 hn hnd, versionIs_of e5 hpv,
      versionIs_of e6 hdv⟩
  case pushPull =>
    simp only [messageFromAny, except_map_ok] at h2
    obtain ⟨p, h2, rfl⟩ := h2
    obtain ⟨e1, e2, e3⟩ := pushPull_decoded h1
    simp only [pushPullFromPb, except_bind_ok] at h2
    obtain ⟨ss, hss, hx⟩ := h2
    injection hx with hx
    subst hx
    exact ⟨e1, e2, forall₂_mapM (g := pushNodeStateFromPb CI CA)
      (S := fun b s => ∃ gs, pbFields b = some gs ∧ PushStateIs CI CA gs s)
      (fun _ _ _ h g => pushStateIs_of h g) e3 hss⟩
  case userData =>
    simp only [messageFromAny, Except.ok.injEq] at h2
    subst h2
    exact userData_decoded h1
  case errorResponse =>
    simp only [messageFromAny, Except.ok.injEq] at h2
    subst h2
    obtain ⟨e1, e2⟩ := error_decoded h1
    exact ⟨e1, e2⟩

theorem hasVarint_of {fs : List Field} {n x : Nat} (h : U32Is fs n x) : HasVarint fs n := by
  obtain ⟨w, hw, _⟩ := h
  exact ⟨w, lastVarint_mem hw⟩

theorem hasBytes_of {T : Type} {C : DataCodec T} {fs : List Field} {n : Nat} {x : T}
    (h : DataIs C fs n x) : HasBytes fs n := by
  obtain ⟨w, hw, _⟩ := h
  exact ⟨w, lastBytes_mem hw⟩

theorem forall₂_left {α β : Type} {R : α → β → Prop} {P : α → Prop} (hR : ∀ a b, R a b → P a) :
    ∀ {as : List α} {bs : List β}, List.Forall₂ R as bs → ∀ a ∈ as, P a := by
  intro as bs h
  induction h with
  | nil => simp
  | cons h _ ih =>
    intro a ha
    rcases List.mem_cons.1 ha with rfl | ha
    · exact hR _ _ h
    · exact ih a ha

theorem required_of_means {tag : MessageTag} {fs : List Field} {m : Message I A}
    (h : MeansFields CI CA tag fs m) : RequiredPresent tag fs := by
  unfold MeansFields at h
  split at h
  · exact ⟨hasVarint_of h.1, hasBytes_of h.2.1.1, hasBytes_of h.2.1.2, hasBytes_of h.2.2.1,
      hasBytes_of h.2.2.2⟩
  · exact ⟨hasVarint_of h.1, hasBytes_of h.2.1.1, hasBytes_of h.2.1.2, hasBytes_of h.2.2.1,
      hasBytes_of h.2.2.2⟩
  · exact ⟨hasVarint_of h.1, hasBytes_of h.2.1, hasBytes_of h.2.2⟩
  · exact ⟨hasVarint_of h.1, hasBytes_of h.2.1, hasBytes_of h.2.2⟩
  · exact ⟨hasVarint_of h.1, hasBytes_of h.2.2.1.1, hasBytes_of h.2.2.1.2⟩
  · trivial
  · trivial
  · refine forall₂_left ?_ h.2.2
    rintro b s ⟨gs, hg, h1, h2, _, h4, ⟨w, hw, _⟩, _⟩
    exact ⟨gs, hg, hasBytes_of h1, hasBytes_of h2, hasVarint_of h4, ⟨w, lastVarint_mem hw⟩⟩
  · trivial
  · trivial
  · exact absurd h id

theorem parseMessage_ok {buf : Bytes} {m : Message I A} (h : parseMessage CI CA buf = .ok m) :
    ∃ tag body fs a, Frame tag.toByte body buf ∧ pbFields body = some fs ∧
      decodeBodyFields tag fs = some a ∧ messageFromAny CI CA a = .ok m := by
  unfold parseMessage decodeMessage at h
  cases hd : decodePlainFrame buf with
  | error e => simp [hd] at h
  | ok r =>
    obtain ⟨tag, body, consumed⟩ := r
    simp only [hd] at h
    obtain ⟨pre, rest, hbuf, hframe, hc⟩ := (decodePlainFrame_ok_iff _ _ _ _).1 hd
    cases hb : decodeBody tag body with
    | error e => simp [hb] at h
    | ok a =>
      simp only [hb] at h
      split at h
      · simp at h
      · rename_i hcl
        have hrest : rest = [] := by
          have : buf.length = pre.length + rest.length := by rw [hbuf, List.length_append]
          have : rest.length = 0 := by omega
          exact List.length_eq_zero_iff.1 this
        subst hrest
        rw [List.append_nil] at hbuf
        subst hbuf
        have hm : messageFromAny CI CA a = .ok m := by
          split at h
          · simp at h
          · rename_i m' hm; injection h with h; rw [hm, h]
        have : ∃ fs, pbFields body = some fs ∧ decodeBodyFields tag fs = some a := by
          cases tag <;> simp only [decodeBody, reduceCtorEq] at hb <;>
          · split at hb
            · simp at hb
            · rename_i fs hfs
              split at hb
              · simp at hb
              · rename_i m' hm'
                injection hb with hb
                subst hb
                exact ⟨fs, hfs, hm'⟩
        obtain ⟨fs, h1, h2⟩ := this
        exact ⟨tag, body, fs, a, hframe, h1, h2, hm⟩

end
end Verif
