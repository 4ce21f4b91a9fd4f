import Verif.Model.Num
import Verif.Model.Config
import Verif.Model.GCode
import Verif.Model.Coordinates
import Verif.Model.Pulses
import Verif.Model.GMachine
import Verif.Spec.GCode
import Verif.Lemmas.GCode
import Verif.Props.GCode
import Verif.Model.Exact
import Verif.Model.Binary64
import Verif.Spec.Numbers
import Verif.Lemmas.Exact
import Verif.Lemmas.Binary64
import Verif.Lemmas.Coordinates
import Verif.Props.Coordinates
import Verif.Spec.Machine
import Verif.Lemmas.Machine
import Verif.Lemmas.Commands
import Verif.Lemmas.Frame
import Verif.Lemmas.Exec
import Verif.Props.Modal
import Verif.Props.Actuators
import Verif.Lemmas.MachineExact
import Verif.Lemmas.Units
import Verif.Props.Motion
import Verif.Spec.Pulses
import Verif.Spec.Moves
import Verif.Lemmas.Pulses
import Verif.Lemmas.Warp
import Verif.Lemmas.Linear
import Verif.Lemmas.LinearNew
import Verif.Lemmas.LinearFacts
import Verif.Lemmas.LinearRun
import Verif.Lemmas.LinearLimits
import Verif.Lemmas.LinearCheck
import Verif.Lemmas.LinearShape
import Verif.Lemmas.LinearWitness
import Verif.Props.Linear
import Verif.Model.Pid
import Verif.Model.Heater
import Verif.Spec.Heater
import Verif.Lemmas.Rounding
import Verif.Lemmas.Pid
import Verif.Lemmas.Heater
import Verif.Props.Heater
import Verif.Model.Sensors
import Verif.Spec.Ads
import Verif.Props.Sensors
import Verif.Spec.Decimals
import Verif.Props.Words
import Verif.Spec.Jobs
import Verif.Lemmas.Bridge
import Verif.Lemmas.Raises
import Verif.Model.Main
import Verif.Spec.Session
import Verif.Props.Main
import Verif.Model.Gpio
import Verif.Props.Gpio
import Verif.Model.Dma
import Verif.Model.HalMove
import Verif.Spec.Dma
import Verif.Lemmas.Dma
import Verif.Lemmas.HalMove
import Verif.Lemmas.HalStream
import Verif.Props.Dma
import Verif.Model.Pwm
import Verif.Spec.Pwm
import Verif.Lemmas.Pwm
import Verif.Lemmas.PwmPar
import Verif.Props.Pwm
import Verif.Model.Watchdog
import Verif.Spec.Watchdog
import Verif.Lemmas.Watchdog
import Verif.Props.Watchdog
import Verif.Model.Calibrate
import Verif.Spec.Calibrate
import Verif.Lemmas.Calibrate
import Verif.Props.Calibrate
import Verif.Spec.Arc
import Verif.Lemmas.ArcInside
import Verif.Lemmas.Arc
import Verif.Lemmas.ArcAngle
import Verif.Lemmas.ArcCount
import Verif.Lemmas.ArcNew
import Verif.Lemmas.ArcExact
import Verif.Lemmas.ArcRun
import Verif.Lemmas.ArcBuild
import Verif.Lemmas.ArcNet
import Verif.Lemmas.ArcWitness
import Verif.Props.Arc
import Verif.Lemmas.Circle
import Verif.Lemmas.ArcMachine
import Verif.Lemmas.ArcMachineWitness
import Verif.Props.ArcEnd
import Verif.Lemmas.HistoryMoves
import Verif.Spec.Head
import Verif.Lemmas.Head
import Verif.Lemmas.HeadHistory
import Verif.Lemmas.HeadDrift
import Verif.Lemmas.HeadPlane
import Verif.Lemmas.Drive
import Verif.Lemmas.HalfCircle
import Verif.Lemmas.BackCircle
import Verif.Lemmas.HeadWitness
import Verif.Props.Head
import Verif.Spec.Interp
import Verif.Lemmas.Interp
import Verif.Props.Interp
import Verif.Props.InterpHuge
import Verif.Lemmas.Float
import Verif.Lemmas.Run64
import Verif.Lemmas.Linear64
import Verif.Lemmas.Circle64
import Verif.Lemmas.Radius64
import Verif.Lemmas.Crash64
import Verif.Props.Float
import Verif.Model.HalVirtual
import Verif.Lemmas.HalVirtual
import Verif.Props.Virtual
import Verif.Spec.Motor
import Verif.Lemmas.Motor
import Verif.Lemmas.HalFinish
import Verif.Lemmas.Gaps
import Verif.Lemmas.Pins
import Verif.Props.Pins
import Verif.Spec.Gpio
import Verif.Model.HalPi
import Verif.Spec.HalPi
import Verif.Lemmas.HalPi
import Verif.Props.HalPi
import Verif.Props.Wait
import Verif.Lemmas.Limit64
import Verif.Lemmas.Decimal64
import Verif.Spec.Interp64
import Verif.Lemmas.Interp64
import Verif.Props.Interp64
import Verif.Lemmas.Shape64
import Verif.Lemmas.Warp64
import Verif.Lemmas.Gaps64
import Verif.Lemmas.Pins64
import Verif.Props.Pins64
import Verif.Model.DmaProto
import Verif.Spec.DmaProto
import Verif.Lemmas.DmaProto
import Verif.Props.DmaProto
import Verif.Model.Process
import Verif.Spec.Process
import Verif.Lemmas.Process
import Verif.Props.Process
import Verif.Lemmas.Psi
import Verif.Lemmas.Track
import Verif.Lemmas.Timed
import Verif.Lemmas.ArcTrack
import Verif.Lemmas.ArcPath
import Verif.Spec.ArcPath
import Verif.Lemmas.ArcFollow
import Verif.Props.ArcPath
import Verif.Lemmas.ArcRate
import Verif.Lemmas.ArcRateWitness
import Verif.Props.ArcRate
import Verif.Lemmas.ArcTime
import Verif.Lemmas.ArcAccelWitness
import Verif.Props.ArcAccel
import Verif.Lemmas.ArcInterp
import Verif.Props.ArcInterp
import Verif.Lemmas.ArcCheck
import Verif.Lemmas.ArcCheckWitness
import Verif.Props.ArcBorders
import Verif.Spec.Feed
import Verif.Lemmas.Feed
import Verif.Props.Feed
import Verif.Spec.Lag
import Verif.Lemmas.Lag
import Verif.Props.Lag
import Verif.Lemmas.HalAbort
import Verif.Props.HalAbort
import Verif.Spec.Rapid
import Verif.Lemmas.Rapid
import Verif.Props.Rapid
import Verif.Props.RapidSpeed
import Verif.Lemmas.Helix
import Verif.Props.Helix
import Verif.Lemmas.HelixTime
import Verif.Lemmas.HelixWitness
import Verif.Props.HelixFeed
import Verif.Spec.ArcMotor
import Verif.Lemmas.ArcStream
import Verif.Lemmas.ArcEnds
import Verif.Props.ArcPins
import Verif.Spec.ArcAny
import Verif.Lemmas.ArcAny
import Verif.Lemmas.ArcAnyStep
import Verif.Props.ArcAny
import Verif.Lemmas.Invert64
import Verif.Lemmas.Rate64
import Verif.Lemmas.Times64
import Verif.Lemmas.Virtual64
import Verif.Props.Rate64
import Verif.Props.Virtual64
import Verif.Spec.Arc64
import Verif.Lemmas.Quarter64
import Verif.Lemmas.Angle64
import Verif.Lemmas.Order64
import Verif.Lemmas.Iter64
import Verif.Lemmas.Convert64
import Verif.Lemmas.ArcVel64
import Verif.Lemmas.ArcPts64
import Verif.Lemmas.Turn64
import Verif.Lemmas.Share64
import Verif.Lemmas.Arc64
import Verif.Lemmas.ArcNet64
import Verif.Lemmas.Drift64
import Verif.Props.Arc64
import Verif.Props.Helix64
import Verif.Lemmas.ArcEnd64
import Verif.Lemmas.ArcLimit64
import Verif.Spec.ArcInterp64
import Verif.Lemmas.ArcInterp64
import Verif.Props.ArcInterp64
import Verif.Spec.ArcAny64
import Verif.Lemmas.ArcPoint64
import Verif.Lemmas.ArcAny64
import Verif.Lemmas.ArcAnyRun64
import Verif.Props.ArcAny64
import Verif.Lemmas.Speed64
import Verif.Props.Speed64
import Verif.Lemmas.Straight64
import Verif.Props.Straight64
import Verif.Spec.Home64
import Verif.Lemmas.Home64
import Verif.Props.Home64
import Verif.Spec.Jobs64
import Verif.Props.Jobs64
import Verif.Spec.ArcJobs64
import Verif.Props.ArcJobs64
import Verif.Props.JobPins64
import Verif.Props.HomeSpeed
import Verif.Props.GoHome
import Verif.Lemmas.Blind
import Verif.Props.NextJob
import Verif.Lemmas.Twin
import Verif.Props.Anywhere
import Verif.Lemmas.Shift
import Verif.Props.Origin
import Verif.Props.GiveUp
