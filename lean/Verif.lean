import Verif.Props.C01_C03_VLU
import Verif.Props.C04_C06_Packet
import Verif.Props.C07_C08_IndexSet
import Verif.Props.C09_C10_List
import Verif.Props.C11_WriteReceipt
import Verif.Lemmas.SendPacket
import Verif.Props.C12_Fragment
import Verif.Lemmas.SendAccount
import Verif.Lemmas.SendInv
import Verif.Lemmas.SendExec
import Verif.Lemmas.SendDemo
import Verif.Lemmas.SendChunks
import Verif.Lemmas.SendEvolve
import Verif.Lemmas.SendAssemble
import Verif.Props.C20_Forward
import Verif.Props.C21_Outstanding
import Verif.Props.C58_DataChunks
import Verif.Props.C14_C16_RecvFlow
import Verif.Props.C17_C18_Ack
import Verif.Props.C22_Delivered
import Verif.Props.C27_Timestamps
import Verif.Props.C28_Ecn
import Verif.Props.C36_Hex
import Verif.Props.C39_C40_TCMessage
import Verif.Props.C42_Checksums
import Verif.Props.C43_FlowSync
import Verif.Props.C50_SessionId
import Verif.Props.C59_RateTracker
import Verif.Props.C60_C61_Rtt
import Verif.Lemmas.SendLined
import Verif.Props.C13_Fits
import Verif.Props.C25_SendFlow
import Verif.Props.C26_Loss
import Verif.Props.C23_Cwnd
import Verif.Props.C29_Cookie
import Verif.Props.C30_TimeCritical
import Verif.Props.C35_Address
import Verif.Props.C37_C38_Uri
import Verif.Model.FlashCrypto
import Verif.Model.PlainCrypto
import Verif.Lemmas.FlashOptions
import Verif.Lemmas.FlashKeying
import Verif.Props.C46_C47_Keying
import Verif.Props.C44_C45_Packets
import Verif.Props.C48_C49_Identity
import Verif.Props.C31_Timers
import Verif.Props.C32_Reorder
import Verif.Props.C33_C34_AMF
import Verif.Props.C41_Media
import Verif.Props.C66_C67_MediaTrack
import Verif.Props.C55_Redirector
import Verif.Props.C78_NoStall
import Verif.Props.C80_Silence
import Verif.Props.C81_Acks
import Verif.Props.C82_Idle
import Verif.Props.C56_Interface
import Verif.Props.C51_Retainer
import Verif.Props.C52_DoLater
import Verif.Props.C53_Transactions
import Verif.Props.C24_Instance
import Verif.Props.C83_Mobility
import Verif.Props.C84_Writable
import Verif.Props.C85_SendAge
import Verif.Props.C86_Json
import Verif.Props.C87_EPoll
import Verif.Props.C88_Startup
import Verif.Props.C89_AddressText
import Verif.Props.C90_Posix
import Verif.Props.C91_WebSocketReceive
import Verif.Props.C92_WebSocketSend
import Verif.Props.C93_WebSocketOpen
import Verif.Props.C94_RtmpReceive
import Verif.Props.C95_RtmpSend
import Verif.Props.C96_RtmpBoth
import Verif.Props.C97_StreamAdapter
import Verif.Lemmas.RTWHeld
import Verif.Lemmas.RTWRoll
import Verif.Props.C98_FlowRecv
import Verif.Props.C99_FlowSend
import Verif.Lemmas.RTWBusy
import Verif.Lemmas.RTWTurn
import Verif.Props.C100_FlowTurns
import Verif.Lemmas.RTWMeek
import Verif.Lemmas.RTWOwe
import Verif.Lemmas.RTWOweAll
import Verif.Lemmas.RTWTame
import Verif.Lemmas.RTWFull
import Verif.Lemmas.RTWNear
import Verif.Lemmas.RTWHear
import Verif.Props.C101_FlowAcks
