import Verif.Basic
import Verif.Kepler.Props14
import Verif.Elements.Props18
import Verif.Elements.Props85
import Verif.Lagr.Props21
import Verif.Lagr.Props25
import Verif.Lagr.Joint
import Verif.Flyby.Props28
import Verif.Flyby.Props84
import Verif.Planet.Props10
import Verif.Planet.Props34
import Verif.Planet.Props36
import Verif.Epoch.Props
import Verif.SF.Props42
import Verif.SF.Props43
import Verif.SF.Props44
import Verif.SF.Props45
import Verif.SF.Props47
import Verif.SF.Kepler
import Verif.SF.GradNan
import Verif.HF.Props48
import Verif.HF.Props49
import Verif.HF.History
import Verif.HF.GradAsm
import Verif.HF.Props61
import Verif.HF.TcGrad
import Verif.Lambert.Props64
import Verif.Lambert.Props86
import Verif.Cache.Vsop
import Verif.Stark.Props41
import Verif.Stark.Dyn
import Verif.Mga.Problem
import Verif.Mga.Props66
import Verif.Mga.Gym
import Verif.Mga.GymPolar
import Verif.Mga.Props77
import Verif.PyConst
import Verif.Direct.Props56
import Verif.Direct.Kepler
import Verif.Epoch.Double
import Verif.Epoch.Convert
import Verif.Archive.Props69
import Verif.Planet.Python
import Verif.Planet.Convert
import Verif.Plot.Theta
import Verif.Plot.Lambert
import Verif.Plot.Leg
import Verif.Planet.Motion75
import Verif.Plot.Orbit
import Verif.Python.Dispatch
import Verif.Python.Arrays
import Verif.Python.Attrs
import Verif.Python.Propagators
import Verif.Print.Lambert
import Verif.Print.Planet
import Verif.Plot.Props87
import Verif.Lagr.Props88
import Verif.Lagr.Props89
import Verif.Kepler.Props90
import Verif.Elements.Props91
import Verif.Elements.ParDouble
import Verif.Elements.Props91b
import Verif.Elements.Props91c
import Verif.Elements.Props92
import Verif.Elements.Props91d
import Verif.Planet.JplDouble
import Verif.Kepler.Props93
import Verif.Planet.Ellipse93
import Verif.Planet.Props93
import Verif.Flyby.VoutDouble
import Verif.Flyby.Props94
import Verif.Flyby.Props94b
import Verif.Cache.VsopLife
import Verif.Mga.EncodingDouble
import Verif.Mga.Props96
import Verif.Mga.Props96b
import Verif.Lagr.Props97
import Verif.Lagr.Props97b
import Verif.Lagr.Props97c
import Verif.Elements.Props85b
import Verif.Elements.Props85c
import Verif.Elements.Props85d
import Verif.Stark.Rotating
import Verif.Stark.Rocket
import Verif.SF.Double
import Verif.SF.Props99
import Verif.Elements.EqParDouble
import Verif.Elements.Props100
import Verif.Elements.Props100b
import Verif.Planet.PeriodDouble
import Verif.HF.TimeDouble
import Verif.SF.TimeDouble
import Verif.HF.HistoryDouble
import Verif.Planet.Props36b
import Verif.Mga.GymCost
