import Verif.Model.Addr
namespace Verif

theorem portOfBytes_portBytes (p : UInt16) :
    portOfBytes (UInt8.ofNat (p.toNat / 256)) (UInt8.ofNat (p.toNat % 256)) = p := by
  have h := p.toNat_lt
  apply UInt16.toNat_inj.1
  simp only [portOfBytes, UInt8.toNat_ofNat', UInt16.toNat_ofNat']
  omega

theorem portBytes_portOfBytes (a b : UInt8) : portBytes (portOfBytes a b) = [a, b] := by
  have ha := a.toNat_lt
  have hb := b.toNat_lt
  have e : (portOfBytes a b).toNat = a.toNat * 256 + b.toNat := by
    simp only [portOfBytes, UInt16.toNat_ofNat']
    omega
  simp only [portBytes, e]
  have h1 : (a.toNat * 256 + b.toNat) / 256 = a.toNat := by omega
  have h2 : (a.toNat * 256 + b.toNat) % 256 = b.toNat := by omega
  rw [h1, h2]
  simp

theorem list_eq_take_two {l : Bytes} {n : Nat} (h : l.length = n + 2) :
    l = l.take n ++ [l[n]'(by omega), l[n+1]'(by omega)] := by
  apply List.ext_getElem
  · simp [List.length_take]; omega
  · intro i h1 h2
    by_cases hi : i < n
    · rw [List.getElem_append_left (by simp [List.length_take]; omega)]
      simp
    · rw [List.getElem_append_right (by simp [List.length_take]; omega)]
      have : i = n ∨ i = n + 1 := by omega
      rcases this with rfl | rfl
      · simp [List.length_take, Nat.min_eq_left (show i ≤ l.length by omega)]
      · simp [List.length_take, Nat.min_eq_left (show n ≤ l.length by omega)]

theorem eq_toNat0 {t : UInt8} (h : t.toNat = 0) : t = 0 := UInt8.toNat_inj.1 h
theorem eq_toNat1 {t : UInt8} (h : t.toNat = 1) : t = 1 := UInt8.toNat_inj.1 h

theorem toBytes_of_fromBytes {b : Bytes} {a : SocketAddr} (h : socketAddrFromBytes b = .ok a) :
    socketAddrToBytes a = .ok b := by
  unfold socketAddrFromBytes at h
  match b with
  | [] => simp at h
  | tag :: rest =>
    simp only at h
    by_cases h0 : tag.toNat = 0
    · rw [if_pos h0] at h
      split at h
      · injection h with h
        subst h
        simp [socketAddrToBytes, portBytes_portOfBytes, eq_toNat0 h0]
      · simp at h
    · rw [if_neg h0] at h
      by_cases h1 : tag.toNat = 1
      · rw [if_pos h1] at h
        split at h
        · rename_i hl
          injection h with h
          subst h
          have hl' : rest.length = 16 + 2 := by simp only [ADDR_V6_LEN] at hl; omega
          simp only [socketAddrToBytes, portBytes_portOfBytes, ne_eq, not_true_eq_false, or_self,
            if_false, eq_toNat1 h1]
          rw [← list_eq_take_two hl']
        · simp at h
      · rw [if_neg h1] at h
        simp at h

theorem fromBytes_v4 (ip : Octets 4) (port : UInt16) :
    socketAddrFromBytes (0 :: (ip.1 ++ portBytes port)) = .ok (.v4 ip port) := by
  obtain ⟨l, hl⟩ := ip
  match l, hl with
  | [a, b, c, d], _ =>
    simp [socketAddrFromBytes, portBytes, portOfBytes_portBytes]

theorem fromBytes_v6 (ip : Octets 16) (port : UInt16) :
    socketAddrFromBytes (1 :: (ip.1 ++ portBytes port)) = .ok (.v6 ip port 0 0) := by
  obtain ⟨l, hl⟩ := ip
  have hlen : (l ++ portBytes port).length + 1 = ADDR_V6_LEN := by
    simp [ADDR_V6_LEN, portBytes, hl]
  simp only [socketAddrFromBytes]
  rw [if_neg (by decide), if_pos (by decide), dif_pos hlen]
  congr 1
  have e1 : (l ++ portBytes port).take 16 = l := by rw [← hl]; simp
  have e2 : (l ++ portBytes port)[16]'(by simp [portBytes, hl]) = UInt8.ofNat (port.toNat / 256) := by
    rw [List.getElem_append_right (by omega)]
    simp [portBytes, hl]
  have e3 : (l ++ portBytes port)[17]'(by simp [portBytes, hl]) = UInt8.ofNat (port.toNat % 256) := by
    rw [List.getElem_append_right (by omega)]
    simp [portBytes, hl]
  rw [e2, e3, portOfBytes_portBytes]
  congr 1
  exact Subtype.ext e1

theorem dataEncode_eq (a : SocketAddr) :
    dataEncodeAddr a = (socketAddrToBytes a).toOption := by
  cases a with
  | v4 => rfl
  | v6 ip port f s =>
    simp only [dataEncodeAddr, socketAddrToBytes]
    split <;> rfl

theorem dataFromBytes_iff (b : Bytes) (a : SocketAddr) :
    dataFromBytesAddr b = .ok a ↔ socketAddrFromBytes b = .ok a := by
  unfold dataFromBytesAddr dataDecodeAddr socketAddrFromBytes
  match b with
  | [] => simp
  | tag :: rest =>
    simp only
    by_cases h0 : tag.toNat = 0
    · rw [if_pos h0, if_pos h0]
      match rest with
      | [] => simp
      | [_] => simp
      | [_, _] => simp
      | [_, _, _] => simp
      | [_, _, _, _] => simp
      | [_, _, _, _, _] => simp
      | [_, _, _, _, _, _] => simp
      | _ :: _ :: _ :: _ :: _ :: _ :: _ :: t =>
        rw [dif_neg (by simp only [List.length_cons]; omega)]
        simp only [List.length_cons]
        rw [if_pos (by omega)]
        simp
    · rw [if_neg h0, if_neg h0]
      by_cases h1 : tag.toNat = 1
      · rw [if_pos h1, if_pos h1]
        by_cases hl : rest.length + 1 = ADDR_V6_LEN
        · rw [dif_pos hl]
          simp only [ADDR_V6_LEN] at hl
          rw [dif_neg (by omega)]
          simp only [List.length_cons]
          rw [if_neg (by omega)]
          constructor <;> (intro h; injection h with h; rw [h])
        · rw [dif_neg hl]
          simp only [ADDR_V6_LEN] at hl
          by_cases hs : rest.length < 16 + 2
          · rw [dif_pos hs]; simp
          · rw [dif_neg hs]
            simp only [List.length_cons]
            rw [if_pos (by omega)]; simp
      · rw [if_neg h1, if_neg h1]; simp

end Verif
