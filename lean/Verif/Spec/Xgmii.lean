import Verif.Model.Xgmii

/-!
# Vocabulary for the XGMII theorems
-/

namespace CocotbBus.Spec

/-- A data lane. -/
def dataLane (b : Byte) : Lane := (b, false)

/-- A packet padded with zeros to the minimum length of 60 bytes. -/
def padded (p : Bytes) : Bytes := p ++ List.replicate (60 - p.length) 0#8

/-- A word with only IDLE control characters. -/
def IdleWord (c : XgCfg) (v : LogicArray) : Prop := xgLanes c v = .ok (List.replicate c.nbytes (xgIdle, true))

/-- The control character `ch` ends the frame whose bytes are on these lanes (one list per word, START and what is before it
removed): `d` are the data bytes before it and `rest` the words after the one it is in. -/
inductive EndsWith : List (List Lane) → Bytes → Byte → List (List Lane) → Prop
  | here (d : Bytes) (ch : Byte) (tail : List Lane) (rest : List (List Lane)) :
      EndsWith ((d.map dataLane ++ (ch, true) :: tail) :: rest) d ch rest
  | more (d d' : Bytes) (ch : Byte) (ws rest : List (List Lane)) : EndsWith ws d' ch rest →
      EndsWith (d.map dataLane :: ws) (d ++ d') ch rest

/-- The word opens a frame and these are the lanes after START: START is in lane 0, or, on a bus of 8 lanes, in lane 4. -/
inductive Opens (n : Nat) : List Lane → List Lane → Prop
  | lane0 (l : List Lane) : Opens n ((xgStart, true) :: l) l
  | lane4 (a b : List Lane) (hn : n = 8) (ha : a.length = 4) (h0 : a.head? ≠ some (xgStart, true)) : Opens n (a ++ (xgStart, true) :: b) b

/-- What has to be seen of a frame with data bytes `d` ended by the control character `ch`. -/
inductive FrameEvents (crc : Bytes → Nat) : Bytes → Byte → List XgEvent → Prop
  /-- another control character than TERMINATE: dropped with an error -/
  | control (d : Bytes) (ch : Byte) (h : ch ≠ xgTerminate) : FrameEvents crc d ch [.control]
  /-- too short: dropped with an error -/
  | short (d : Bytes) (h : 0 < d.length) (h' : d.length < 12) : FrameEvents crc d xgTerminate [.runt, .noData]
  /-- nothing between START and TERMINATE: dropped (without an error) -/
  | empty : FrameEvents crc [] xgTerminate []
  /-- wrong preamble: dropped with an error -/
  | preamble (pre d : Bytes) (hp : pre.length = 7) (h : pre ≠ preambleSfd) (h' : 12 ≤ (pre ++ d).length) :
      FrameEvents crc (pre ++ d) xgTerminate ((if (pre ++ d).length < 71 then [.runt] else []) ++ [.preamble])
  /-- reported without preamble and check sum; a wrong check sum is an error -/
  | good (payload fcs : Bytes) (hf : fcs.length = 4) (hp : payload ≠ []) (errs : List XgEvent)
      (he : errs = (if payload.length < 60 then [.runt] else []) ++ (if fcs = natToBytesLE 4 (crc payload % 2 ^ 32) then [] else [.badCrc])) :
      FrameEvents crc (preambleSfd ++ payload ++ fcs) xgTerminate (errs ++ [.recv payload])

/-- What has to be seen of a sequence of words, starting outside a frame. -/
inductive Scan (n : Nat) (crc : Bytes → Nat) : List (List Lane) → List XgEvent → Prop
  | nil : Scan n crc [] []
  | skip (w : List Lane) (ws : List (List Lane)) (ev : List XgEvent) (h : ∀ l, ¬ Opens n w l) (hs : Scan n crc ws ev) : Scan n crc (w :: ws) ev
  | frame (w l : List Lane) (ws rest : List (List Lane)) (d : Bytes) (ch : Byte) (fe ev : List XgEvent) (ho : Opens n w l)
      (he : EndsWith (l :: ws) d ch rest) (hf : FrameEvents crc d ch fe) (hs : Scan n crc rest ev) : Scan n crc (w :: ws) (fe ++ ev)
  | unfinished (w l : List Lane) (ws : List (List Lane)) (ho : Opens n w l) (hd : ∀ x ∈ l :: ws, ∀ y ∈ x, y.2 = false) : Scan n crc (w :: ws) []

end CocotbBus.Spec
