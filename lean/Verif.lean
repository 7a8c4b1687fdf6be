import Verif.Props.Codec
import Verif.Props.Reader
import Verif.Props.Ids
import Verif.Props.Tunnel
import Verif.Props.Relay
import Verif.Props.Virtual
import Verif.Props.ConfigNum
import Verif.Props.ConfigText
import Verif.Props.Helper
import Verif.Props.Limit
import Verif.Props.Health
import Verif.Props.Upstream
import Verif.Props.Reverse
import Verif.Props.Inherit
import Verif.Props.Files
import Verif.Props.Socks
import Verif.Props.HttpProxy
import Verif.Props.Udp
import Verif.Props.Control
import Verif.Props.Log
import Verif.Props.HealthList
import Verif.Props.TunnelProgress
import Verif.Props.Select
import Verif.Props.Life
import Verif.Props.ReverseMore
import Verif.Props.FilesMore
import Verif.Props.UdpMore
import Verif.Props.ControlMore
import Verif.Props.LogMore
import Verif.Props.HealthMore
import Verif.Props.World
import Verif.Props.TransHttp
import Verif.Props.Listen
import Verif.Props.Core
import Verif.Props.WorldClose
import Verif.Props.Target
import Verif.Props.Cli
import Verif.Props.Chain
import Verif.Props.Texts
import Verif.Props.Access
import Verif.Props.Rewrite
import Verif.Props.Answer
import Verif.Props.Builder
import Verif.Props.Memory
import Verif.Props.Orphan
import Verif.Props.Start
import Verif.Props.Listing
import Verif.Props.Reload
import Verif.Props.Desk
import Verif.Props.Ring
import Verif.Props.Slow
import Verif.Props.RuleText
import Verif.Props.WorldDrain
import Verif.Props.WorldDrainUp
import Verif.Props.Assoc
import Verif.Props.FileLines
import Verif.Props.Robots
import Verif.Props.WorldEnd
import Verif.Props.WorldEndUp
import Verif.Props.TryBody
import Verif.Props.LogErrors
import Verif.Props.LimitOver
import Verif.Props.LogFields
import Verif.Props.Scalars
import Verif.Props.VirtualEnd
import Verif.Props.WorldOpen
import Verif.Props.AssocAddr
import Verif.Props.WorldFair
import Verif.Props.WorldFairUp
import Verif.Props.FileRange
import Verif.Props.WorldFairOpen
import Verif.Props.Redial
import Verif.Props.Pass
import Verif.Props.WorldFairEnd
import Verif.Props.LimitZones
import Verif.Props.Turns
import Verif.Props.PidFile
import Verif.Props.RedialLife
import Verif.Props.Crash
import Verif.Props.Refused
import Verif.Props.KeptBound
import Verif.Props.Failover
import Verif.Props.Contact
import Verif.Props.UdpBound
import Verif.Props.IfRange
import Verif.Props.TunnelFails
import Verif.Props.SameName
import Verif.Props.Layout
import Verif.Props.ChainDrain
import Verif.Props.ChainWait
import Verif.Props.ChainDrainDown
import Verif.Props.Loss
import Verif.Props.Repeat
import Verif.Audit
